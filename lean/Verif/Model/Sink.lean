import Verif.Model.Pretty

/-!
# The pretty printer on a formatter that may fail (`src/node/debug_print/pretty.rs`)

`Model/Pretty` with a formatter behind the writer that may refuse any call: `σ i` tells what happens to the
`i`-th call, `none` if it succeeds, `some k` if it fails after having taken `k` characters.  The formatting of
the data is a strategy `Fmt` that sees whether its calls of `write_str` succeeded and may go on after a failure,
and may itself return an error.
-/

set_option autoImplicit false

namespace Dendron
variable {α : Type}

/-- An implementation of `Display` or `Debug`: what it passes to `write_str`, depending on the results, and what it
returns (`true` is `Ok`). -/
inductive Fmt where
  | done (ok : Bool)
  | write (s : List Char) (k : Bool → Fmt)

/-- What the formatter does. -/
abbrev Sink := Nat → Option Nat

/-- The writer and the number of calls of the formatter so far. -/
structure SW where
  base : Writer
  calls : Nat

namespace SW

/-- `self.fmt.write_str(s)`; `false` is `Err`. -/
def put (σ : Sink) (w : SW) (s : List Char) : Bool × SW :=
  match σ w.calls with
  | none => (true, ⟨{ w.base with out := w.base.out ++ s }, w.calls + 1⟩)
  | some k => (false, ⟨{ w.base with out := w.base.out ++ s.take k }, w.calls + 1⟩)

/-- The operator `?`. -/
def andThen (r : Except Fault (Bool × SW)) (k : SW → Except Fault (Bool × SW)) : Except Fault (Bool × SW) :=
  match r with
  | .error e => .error e
  | .ok (false, w) => .ok (false, w)
  | .ok (true, w) => k w

/-- Calls one after the other, up to the first failure. -/
def putAll (σ : Sink) (w : SW) : List (List Char) → Except Fault (Bool × SW)
  | [] => .ok (true, w)
  | s :: ss => andThen (.ok (w.put σ s)) (fun w => putAll σ w ss)

/-- `open_item` (`src/node/debug_print/pretty.rs` 102-117). -/
def openItem (σ : Sink) (w : SW) (isLast : Bool) : Except Fault (Bool × SW) :=
  let finish : SW → Except Fault (Bool × SW) := fun w => .ok (true, { w with base :=
    { w.base with
      indents := Writer.modifyLast (fun b => { b with isFirst := false }) w.base.indents ++ [⟨isLast, true⟩] } })
  if w.base.line ≠ .beforeIndent then
    andThen (.ok (w.put σ ['\n'])) fun w =>
      finish { w with base := { w.base with line := .beforeIndent, pending := 0 } }
  else finish w

/-- `write_indent_partial` (`src/node/debug_print/pretty.rs` 133-151). -/
def writeIndentPartial (σ : Sink) (w : SW) : Except Fault (Bool × SW) :=
  let pending := (w.base.indents.reverse.takeWhile Block.isAllWhitespace).length
  let toPrint := w.base.indents.take (w.base.indents.length - pending)
  let w : SW := { w with base := { w.base with pending := pending } }
  match toPrint.getLast? with
  | some last => w.putAll σ (toPrint.dropLast.map Block.asStr ++ [last.leading])
  | none => .ok (true, w)

/-- `complete_partial_indent` (`src/node/debug_print/pretty.rs` 154-168). -/
def completePartialIndent (σ : Sink) (w : SW) : Except Fault (Bool × SW) :=
  if w.base.indents.length < w.base.pending then .error (.panic "attempt to subtract with overflow")
  else
    andThen (match w.base.indents.length - w.base.pending with
      | 0 => .ok (true, w)
      | k + 1 => match w.base.indents[k]? with
        | some b => .ok (w.put σ b.trailing)
        | none => .error (.panic "index out of bounds")) fun w =>
    andThen (w.putAll σ (List.replicate w.base.pending [' ', ' ', ' ', ' '])) fun w =>
    .ok (true, { w with base := { w.base with pending := 0 } })

/-- The indent of the current line, if it is not written completely (`src/node/debug_print/pretty.rs` 176-179,
193-195). -/
def startLine (σ : Sink) (w : SW) : Except Fault (Bool × SW) :=
  if w.base.line = .beforeIndent then
    andThen (w.writeIndentPartial σ) fun w =>
      completePartialIndent σ { w with base := { w.base with line := .partialIndent } }
  else if w.base.line = .partialIndent then w.completePartialIndent σ
  else .ok (true, w)

/-- What is written to the current line, and the end of the iteration (`src/node/debug_print/pretty.rs` 196-205):
the flag of the block is set before the call of the formatter, the state of the line after it. -/
def writeContent (σ : Sink) (w : SW) (content : List Char) (nl : Bool) : Except Fault (Bool × SW) :=
  let w : SW := { w with base :=
    { w.base with indents := Writer.modifyLast (fun b => { b with isFirst := b.isFirst && !nl }) w.base.indents } }
  andThen (.ok (w.put σ content)) fun w =>
    .ok (true, { w with base := { w.base with line := if nl then .beforeIndent else .content } })

/-- The loop of `write_str` (`src/node/debug_print/pretty.rs` 172-211). -/
def writeLoop (σ : Sink) : Nat → SW → List Char → Except Fault (Bool × SW)
  | _, w, [] => .ok (true, w)
  | 0, _, _ :: _ => .error .diverge
  | f + 1, w, s@(_ :: _) =>
    let (content, nl, rest) := Writer.splitLine s
    andThen (w.startLine σ) fun w => andThen (w.writeContent σ content nl) fun w => writeLoop σ f w rest

/-- `write_str` (`src/node/debug_print/pretty.rs` 172-211). -/
def writeStr (σ : Sink) (w : SW) (s : List Char) : Except Fault (Bool × SW) := writeLoop σ s.length w s

/-- `write!(writer, "{}", data)`. -/
def run (σ : Sink) : Fmt → SW → Except Fault (Bool × SW)
  | .done ok, w => .ok (ok, w)
  | .write s k, w =>
    match w.writeStr σ s with
    | .error e => .error e
    | .ok (ok, w) => run σ (k ok) w

end SW

/-- The text of a node (`src/node/debug_print/pretty.rs` 244-253, 257-266, 280-289, 293-302). -/
def Heap.fmtOf (h : Heap α) (fmt : α → Fmt) (n : NodeId) : Fmt :=
  match h.borrowData n with
  | .ok d => fmt d
  | .error _ => .write "(borrowed)".toList .done

/-- `prepare_next_node_printing` (`src/node/debug_print/pretty.rs` 312-335); `none` is `Err`. -/
def Heap.prepareNextTo (h : Heap α) (σ : Sink) : Nat → SW → Dft.State →
    Except Fault (Option (Option NodeId) × SW × Dft.State)
  | 0, _, _ => .error .diverge
  | f + 1, w, s =>
    match h.linkDftNext s with
    | (none, s) => .ok (some none, w, s)
    | (some (.opn n), s) =>
      match w.openItem σ (h.next n).isNone with
      | .error e => .error e
      | .ok (true, w) => .ok (some (some n), w, s)
      | .ok (false, w) => .ok (none, w, s)
    | (some (.cls _), s) =>
      match w.base.closeItem with
      | some b => prepareNextTo h σ f { w with base := b } s
      | none => .ok (some none, w, s)

/-- The loop over the descendants (`src/node/debug_print/pretty.rs` 256-267, 292-303). -/
def Heap.prettyLoopTo (h : Heap α) (σ : Sink) (fmt : α → Fmt) : Nat → SW → Dft.State → Except Fault (Bool × SW)
  | 0, _, _ => .error .diverge
  | f + 1, w, s =>
    match h.prepareNextTo σ (2 * h.nNode + 2) w s with
    | .error e => .error e
    | .ok (none, w, _) => .ok (false, w)
    | .ok (some none, w, _) => .ok (true, w)
    | .ok (some (some n), w, s) => SW.andThen (SW.run σ (h.fmtOf fmt n) w) fun w => prettyLoopTo h σ fmt f w s

/-- `fmt` of `DebugPrettyPrint` (`src/node/debug_print/pretty.rs` 236-270, 272-306). -/
def Heap.prettyTo (h : Heap α) (σ : Sink) (fmt : α → Fmt) (n : NodeId) : Except Fault (Bool × SW) :=
  let (_, s) := h.linkDftNext (Dft.start n)
  SW.andThen (SW.run σ (h.fmtOf fmt n) ⟨.new, 0⟩) fun w => h.prettyLoopTo σ fmt (2 * h.nNode + 2) w s

end Dendron
