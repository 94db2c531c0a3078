import Verif.Spec.Cursor
import Verif.Proofs.IterLast
import Verif.Proofs.Anc

/-! Iterators that are two cursors on a list. -/

set_option linter.unusedSimpArgs false
set_option linter.unusedVariables false

set_option autoImplicit false

namespace Dendron
open RTree

variable {α β ι : Type} {h : Heap α} {ch : NodeId → List NodeId} {n p : NodeId}

/-- `next` and `back` move two independent cursors on `L`. -/
structure Cursors {ι : Type} (next back : Option (ι × ι) → Except Fault (Option ι × Option (ι × ι)))
    (L : List ι) : Prop where
  onFront : ∀ i a b, L[i]? = some a → next (some (a, b)) = .ok (some a, (L[i + 1]?).map (·, b))
  onBack : ∀ j a b, L[j]? = some b →
    back (some (a, b)) = .ok (some b, (if 0 < j then L[j - 1]? else none).map (a, ·))
  front0 : next none = .ok (none, none)
  back0 : back none = .ok (none, none)

namespace Cursors
variable {next back : Option (ι × ι) → Except Fault (Option ι × Option (ι × ι))} {L : List ι}

theorem run0 (C : Cursors next back L) : ∀ es, runSched next back es none = .ok (twoCursors L es none)
  | [] => rfl
  | .front :: es => by simp [runSched, C.front0, run0 C es, twoCursors, Except.map]
  | .back :: es => by simp [runSched, C.back0, run0 C es, twoCursors, Except.map]

theorem run (C : Cursors next back L) : ∀ es i j a b, L[i]? = some a → L[j]? = some b →
    runSched next back es (some (a, b)) = .ok (twoCursors L es (some (i, j)))
  | [], _, _, _, _, _, _ => rfl
  | .front :: es, i, j, a, b, hi, hj => by
    simp only [runSched, C.onFront i a b hi, twoCursors]
    cases hn : L[i + 1]? with
    | none =>
      have : ¬ i + 1 < L.length := by simpa using hn
      simp [this, run0 C es, Except.map, hi]
    | some a' =>
      have : i + 1 < L.length := by
        rw [List.getElem?_eq_some_iff] at hn; exact hn.1
      simp [this, run C es (i + 1) j a' b hn hj, Except.map, hi]
  | .back :: es, i, j, a, b, hi, hj => by
    simp only [runSched, C.onBack j a b hj, twoCursors]
    have hjl : j < L.length := by rw [List.getElem?_eq_some_iff] at hj; exact hj.1
    by_cases h0 : 0 < j
    · have hlt : j - 1 < L.length := by omega
      have hn : L[j - 1]? = some L[j - 1] := List.getElem?_eq_getElem hlt
      simp [h0, hn, run C es i (j - 1) a _ hi hn, Except.map, hj]
    · simp [h0, run0 C es, Except.map, hj]

theorem yields (C : Cursors next back L) : ∀ (k i : Nat) (a b : ι), L[i]? = some a → L.length - i ≤ k →
    Yields next (some (a, b)) (L.drop i)
  | 0, i, a, b, hi, hk => by
    rw [List.getElem?_eq_some_iff] at hi; obtain ⟨h1, -⟩ := hi; omega
  | k + 1, i, a, b, hi, hk => by
    have hl : i < L.length := by rw [List.getElem?_eq_some_iff] at hi; exact hi.1
    have ha : L[i] = a := by rw [List.getElem?_eq_getElem hl] at hi; exact Option.some.inj hi
    rw [List.drop_eq_getElem_cons hl, ha]
    have e := C.onFront i a b hi
    cases hn : L[i + 1]? with
    | none =>
      rw [hn] at e
      have : ¬ i + 1 < L.length := by simpa using hn
      rw [List.drop_eq_nil_of_le (by omega)]
      exact .more e (.done C.front0 C.front0)
    | some a' =>
      rw [hn] at e
      exact .more e (yields C k (i + 1) a' b hn (by omega))

theorem back_yields (C : Cursors next back L) : ∀ (j : Nat) (a b : ι), L[j]? = some b →
    Yields back (some (a, b)) (L.take (j + 1)).reverse
  | 0, a, b, hj => by
    have hl : 0 < L.length := by rw [List.getElem?_eq_some_iff] at hj; exact hj.1
    have e := C.onBack 0 a b hj
    have : L.take 1 = [b] := by
      cases L with
      | nil => simp at hl
      | cons x l => simp at hj; simp [hj]
    rw [this]
    exact .more e (.done C.back0 C.back0)
  | j + 1, a, b, hj => by
    have hl : j + 1 < L.length := by rw [List.getElem?_eq_some_iff] at hj; exact hj.1
    have hb : L[j + 1] = b := by rw [List.getElem?_eq_getElem hl] at hj; exact Option.some.inj hj
    have e := C.onBack (j + 1) a b hj
    have hn : L[j]? = some L[j] := List.getElem?_eq_getElem (by omega)
    simp only [Nat.zero_lt_succ, if_true, Nat.add_sub_cancel, hn] at e
    rw [List.take_add_one, hj]
    simp only [Option.toList_some, List.reverse_append, List.reverse_singleton, List.singleton_append]
    exact .more e (back_yields C j a _ hn)
end Cursors

/-! ### When two cursors are a proper double-ended iterator -/

theorem dequeSched_nil : ∀ es : List Side, dequeSched (ι := ι) es [] = es.map fun _ => none
  | [] => rfl
  | .front :: es => by simp [dequeSched, dequeSched_nil es]
  | .back :: es => by simp [dequeSched, dequeSched_nil es]

theorem twoCursors_none (L : List ι) : ∀ es : List Side, twoCursors L es none = es.map fun _ => none
  | [] => rfl
  | .front :: es => by simp [twoCursors, twoCursors_none L es]
  | .back :: es => by simp [twoCursors, twoCursors_none L es]

theorem twoCursors_fronts (L : List ι) : ∀ (k i j : Nat), i + k ≤ L.length → 
    twoCursors L (List.replicate k .front) (some (i, j)) = ((L.drop i).take k).map some
  | 0, _, _, _ => by simp [twoCursors]
  | k + 1, i, j, hk => by
    have hl : i < L.length := by omega
    simp only [List.replicate_succ, twoCursors, List.drop_eq_getElem_cons hl, List.take_succ_cons,
      List.map_cons, List.getElem?_eq_getElem hl]
    congr 1
    by_cases h1 : i + 1 < L.length
    · rw [if_pos h1]; exact twoCursors_fronts L k (i + 1) j (by omega)
    · rw [if_neg h1, twoCursors_none]
      obtain rfl : k = 0 := by omega
      simp

theorem dequeSched_fronts : ∀ (k : Nat) (l : List ι),
    dequeSched (List.replicate k .front) l = (l.take k).map some ++ List.replicate (k - l.length) none
  | 0, l => by simp [dequeSched]
  | k + 1, [] => by simp [List.replicate_succ, dequeSched, dequeSched_nil]
  | k + 1, a :: l => by simp [List.replicate_succ, dequeSched, dequeSched_fronts k l]

/-- Two cursors that start at both ends of the segment from `i` to `j` work exactly on a list of length
one. -/
theorem twoCursors_double {L : List ι} {i j : Nat} (hij : i ≤ j) (hj : j < L.length) :
    (∀ es, twoCursors L es (some (i, j)) = dequeSched es ((L.take (j + 1)).drop i)) ↔ L.length = 1 := by
  constructor
  · intro hall
    refine Classical.byContradiction fun h1 => ?_
    by_cases h0 : 0 < j
    · have hseg : ((L.take (j + 1)).drop i).length = j + 1 - i := by simp; omega
      have e := hall (.back :: List.replicate (L.length - i) .front)
      simp only [twoCursors, dequeSched, h0, if_true, List.cons.injEq] at e
      obtain ⟨-, e⟩ := e
      rw [twoCursors_fronts _ _ _ _ (by omega), dequeSched_fronts] at e
      have e2 := congrArg (fun l => l[j - i]?) e
      rw [List.getElem?_append_right (by simp; omega), List.getElem?_map, List.getElem?_replicate] at e2
      have h3 : (List.take (L.length - i) (List.drop i L))[j - i]? = L[j]? := by
        rw [List.getElem?_take, if_pos (by omega), List.getElem?_drop]
        congr 1; omega
      rw [h3, List.getElem?_eq_getElem hj] at e2
      simp only [Option.map_some] at e2
      split at e2 <;> simp at e2
    · have hi : i = 0 := by omega
      have hj0 : j = 0 := by omega
      subst hi; subst hj0
      have e := hall [.front, .front]
      match L, hj, h1 with
      | [], hj, _ => simp at hj
      | [x], _, h1 => simp at h1
      | x :: y :: l, _, _ => simp [twoCursors, dequeSched] at e
  · intro h1 es
    have hj0 : j = 0 := by omega
    have hi : i = 0 := by omega
    subst hi; subst hj0
    match L, h1 with
    | [x], _ =>
      match es with
      | [] => rfl
      | .front :: es => simp [twoCursors, dequeSched, twoCursors_none, dequeSched_nil]
      | .back :: es => simp [twoCursors, dequeSched, twoCursors_none, dequeSched_nil]

/-- Two cursors that are not started at both ends of a segment never yield just nothing. -/
theorem twoCursors_not_nil {L : List ι} {i j : Nat} (hi : i < L.length) :
    ¬ ∀ es, twoCursors L es (some (i, j)) = dequeSched es [] := by
  intro hall
  have e := hall [.front]
  simp [twoCursors, dequeSched, List.getElem?_eq_getElem hi] at e

/-! ### The depth-first cursors -/

theorem Linked.get {R : β → β → Prop} : ∀ {l : List β} {i : Nat} {a b : β}, Linked R l →
    l[i]? = some a → l[i + 1]? = some b → R a b
  | [], i, a, b, _, h1, _ => by simp at h1
  | [x], i, a, b, _, _, h2 => by simp at h2
  | x :: y :: l, 0, a, b, hl, h1, h2 => by
    simp at h1 h2
    subst h1; subst h2
    exact hl.1
  | x :: y :: l, i + 1, a, b, hl, h1, h2 =>
    Linked.get (l := y :: l) (i := i) hl.2 (by simpa using h1) (by simpa using h2)

theorem WF.dft_cursors (W : WF h ch) {r : NodeId} {tr : RTree NodeId} (ha : h.alive r = true)
    (hr : ∀ p, r ∉ ch p) (htr : SubtreeAt ch r tr) :
    Cursors (StableDft.next h) (StableDft.back h) tr.events where
  front0 := rfl
  back0 := rfl
  onFront := by
    intro i a b hi
    simp only [StableDft.next]
    cases hn : tr.events[i + 1]? with
    | some a' =>
      have := (W.toShape.linked_events ha htr).get hi hn
      simp [this.1]
    | none =>
      have hlast := events_last tr
      have hl : i < tr.events.length := by rw [List.getElem?_eq_some_iff] at hi; exact hi.1
      have hl' : ¬ i + 1 < tr.events.length := by simpa using hn
      rw [List.getLast?_eq_getElem?, show tr.events.length - 1 = i by omega, hi] at hlast
      obtain rfl := Option.some.inj hlast
      rw [htr.1, W.toShape.evNext_root ha hr]
  onBack := by
    intro j a b hj
    have hl : j < tr.events.length := by rw [List.getElem?_eq_some_iff] at hj; exact hj.1
    by_cases h0 : 0 < j
    · have hn : tr.events[j - 1]? = some tr.events[j - 1] := List.getElem?_eq_getElem (by omega)
      have := (W.toShape.linked_events ha htr).get hn (by rw [Nat.sub_add_cancel h0]; exact hj)
      simp only [StableDft.back, this.2, h0, if_true, hn, bind, Except.bind, pure, Except.pure]
    · obtain rfl : j = 0 := by omega
      have hh := events_head tr
      rw [List.head?_eq_getElem?, hj] at hh
      obtain rfl := Option.some.inj hh
      simp [StableDft.back, htr.1, W.toShape.evPrev_root ha hr, bind, Except.bind, pure, Except.pure]

theorem WF.sib_cursors (W : WF h ch) (p : NodeId) :
    Cursors (StableSib.next h) (StableSib.back h) (ch p) where
  front0 := rfl
  back0 := rfl
  onFront := by
    intro i a b hi
    have hl : i < (ch p).length := by rw [List.getElem?_eq_some_iff] at hi; exact hi.1
    have ha : (ch p)[i] = a := by rw [List.getElem?_eq_getElem hl] at hi; exact Option.some.inj hi
    have hs : ch p = (ch p).take i ++ a :: (ch p).drop (i + 1) := by
      rw [← ha, ← List.drop_eq_getElem_cons hl, List.take_append_drop]
    have := W.toFShape.next_at hs
    simp only [StableSib.next, Heap.nextLink, this]
    rw [List.head?_drop]
  onBack := by
    intro j a b hj
    have hl : j < (ch p).length := by rw [List.getElem?_eq_some_iff] at hj; exact hj.1
    have hb : (ch p)[j] = b := by rw [List.getElem?_eq_getElem hl] at hj; exact Option.some.inj hj
    have hs : ch p = (ch p).take j ++ b :: (ch p).drop (j + 1) := by
      rw [← hb, ← List.drop_eq_getElem_cons hl, List.take_append_drop]
    have := W.toShape.prevLink_at hs
    simp only [StableSib.back, this, bind, Except.bind, pure, Except.pure]
    congr 3
    by_cases h0 : 0 < j
    · rw [if_pos h0, List.getLast?_take]
      simp [Nat.ne_of_gt h0, List.getElem?_eq_getElem (show j - 1 < (ch p).length by omega)]
    · obtain rfl : j = 0 := by omega
      simp

end Dendron
