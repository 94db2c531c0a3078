import Verif.Proofs.Sink
import Verif.Proofs.Demo
import Verif.Props.Pretty

/-!
# C65: pretty printing to a formatter that may fail

`σ i` is what the formatter does with its `i`-th call: take everything (`none`) or fail after `k` characters
(`some k`).  `h.prettyTo σ fmt n` is `write!(f, "{}", n.debug_pretty_print())`: the first component of the result is
whether it returned `Ok`, `calls` is the number of calls of the formatter and `out` what it took.
-/

set_option autoImplicit false

namespace Dendron

variable {α : Type} {h : Heap α} {ch : NodeId → List NodeId} {n : NodeId} {t : RTree NodeId} {σ : Sink}
  {fmt : α → Fmt} {pcs : α → List (List Char)}

/-- If the formatting of the data reports failures, the printer returns `Ok` exactly if every call of the formatter
succeeded, and then all of the drawing is there.  Otherwise the failing call was the last one, and what the formatter
took is the beginning of the drawing. -/
theorem C65_prefix (F : FShape h ch) (hf : ∀ d, Relays (fmt d) (pcs d)) (ha : h.alive n = true)
    (ht : SubtreeAt ch n t) :
    (∃ v, h.prettyTo σ fmt n = .ok (true, v) ∧ (∀ i, i < v.calls → σ i = none) ∧
      v.base.out = (t.map (h.textOf pcs)).drawing) ∨
    (∃ v k, h.prettyTo σ fmt n = .ok (false, v) ∧ v.calls = k + 1 ∧ (∀ i, i < k → σ i = none) ∧ σ k ≠ none ∧
      v.base.out <+: (t.map (h.textOf pcs)).drawing) := by
  obtain ⟨b, e, E⟩ := Echo.pretty (σ := σ) hf (F.pretty pcs ha ht)
  rw [← e]
  obtain ⟨ok, v, e'⟩ := F.prettyTo_returns (σ := σ) fmt ha
  rw [e'] at E ⊢
  cases ok with
  | true =>
    obtain ⟨-, h2, h3⟩ := E
    simp only [Except.ok.injEq] at h3
    exact .inl ⟨v, rfl, fun i hi => h2 i (Nat.zero_le _) hi, by rw [h3]⟩
  | false =>
    obtain ⟨k, h1, -, h3, h4, h5⟩ := E
    exact .inr ⟨v, k, rfl, h1, fun i hi => h3 i (Nat.zero_le _) hi, h4, h5 b rfl⟩

/-- On a formatter that never fails, everything is printed. -/
theorem C65_all (F : FShape h ch) (hf : ∀ d, Relays (fmt d) (pcs d)) (ha : h.alive n = true) (ht : SubtreeAt ch n t)
    (hσ : ∀ i, σ i = none) :
    ∃ v, h.prettyTo σ fmt n = .ok (true, v) ∧ v.base.out = (t.map (h.textOf pcs)).drawing := by
  rcases C65_prefix (σ := σ) F hf ha ht with ⟨v, e, -, h2⟩ | ⟨v, k, -, -, -, h3, -⟩
  · exact ⟨v, e, h2⟩
  · exact absurd (hσ k) h3

/-- `Ok` is never returned for an incomplete drawing. -/
theorem C65_ok_complete (F : FShape h ch) (hf : ∀ d, Relays (fmt d) (pcs d)) (ha : h.alive n = true) (ht : SubtreeAt ch n t)
    {v : SW} (e : h.prettyTo σ fmt n = .ok (true, v)) : v.base.out = (t.map (h.textOf pcs)).drawing := by
  rcases C65_prefix (σ := σ) F hf ha ht with ⟨v', e', -, h2⟩ | ⟨v', k, e', -, -, -, -⟩
  · rw [e] at e'; cases e'; exact h2
  · rw [e] at e'; cases e'

/-- The printer returns, without a panic, whatever the formatter does and however the data is formatted: the
formatting may go on writing after a failure, ignore failures, or fail on its own. -/
theorem C65_returns (F : FShape h ch) (fmt : α → Fmt) (σ : Sink) (ha : h.alive n = true) :
    ∃ ok v, h.prettyTo σ fmt n = .ok (ok, v) := F.prettyTo_returns fmt ha

/-- Formatting of numbers in two pieces, the second one with a newline. -/
private def twoLines (d : Nat) : Fmt :=
  .write (Nat.repr d).toList fun ok => if ok then .write "\nx".toList .done else .done false

private theorem twoLines_relays (d : Nat) : Relays (twoLines d) [(Nat.repr d).toList, "\nx".toList] :=
  .write rfl (.write rfl .done)

/-- Formatting that ignores failures. -/
private def stubborn (d : Nat) : Fmt := .write (Nat.repr d).toList fun _ => .write "\nx".toList fun _ => .done true

private def result (r : Except Fault (Bool × SW)) : Option (Bool × Nat × String) :=
  match r with
  | .ok (b, v) => some (b, v.calls, String.ofList v.base.out)
  | .error _ => none

/-- A formatter that never fails. -/
example : result (Demo.heap.prettyTo (fun _ => none) twoLines 2) =
    some (true, 18, "12\nx\n|-- 14\n|   x\n`-- 15\n    x") := by decide +kernel

/-- The seventh call fails after one character: a prefix of the above. -/
example : result (Demo.heap.prettyTo (fun i => if i = 6 then some 1 else none) twoLines 2) =
    some (false, 7, "12\nx\n|-- 1") := by decide +kernel

example := C65_prefix (σ := fun i => if i = 6 then some 1 else none) (n := 2) (t := .node 2 [.node 4 [], .node 5 []])
  Demo.wf.toFShape twoLines_relays rfl ⟨rfl, by simp [Hier, HierL, Demo.ch, RTree.label]⟩

example := C65_all (σ := fun _ => none) (n := 2) (t := .node 2 [.node 4 [], .node 5 []])
  Demo.wf.toFShape twoLines_relays rfl ⟨rfl, by simp [Hier, HierL, Demo.ch, RTree.label]⟩ (fun _ => rfl)

/-- With formatting that ignores failures the printer goes on and returns `Ok`; the blank before `14` is written
again. -/
example : result (Demo.heap.prettyTo (fun i => if i = 6 then some 1 else none) stubborn 2) =
    some (true, 19, "12\nx\n|-- 1 \n|   x\n`-- 15\n    x") ∧
    ∃ ok v, Demo.heap.prettyTo (fun i => if i = 6 then some 1 else none) stubborn 2 = .ok (ok, v) :=
  ⟨by decide +kernel, C65_returns Demo.wf.toFShape _ _ rfl⟩

end Dendron
