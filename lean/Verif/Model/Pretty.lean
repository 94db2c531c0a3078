import Verif.Model.Serial

/-!
# The pretty printer (`src/node/debug_print/pretty.rs`)

Strings are lists of characters.  The formatting of the data of a node is a function to the list of
strings that are passed to `write_str`, one after the other (`write!(writer, "{}", data)` calls it with
the pieces).  The formatter behind the writer does not fail.
-/

set_option autoImplicit false

namespace Dendron
variable {α : Type}

/-- `IndentedBlockState` (`src/node/debug_print/pretty.rs` 11-17). -/
structure Block where
  isLast : Bool
  isFirst : Bool
  deriving DecidableEq, Repr

namespace Block

/-- `as_str` (`src/node/debug_print/pretty.rs` 22-29). -/
def asStr (b : Block) : List Char :=
  match b.isLast, b.isFirst with
  | false, true => ['|', '-', '-', ' ']
  | false, false => ['|', ' ', ' ', ' ']
  | true, true => ['`', '-', '-', ' ']
  | true, false => [' ', ' ', ' ', ' ']

/-- `as_str_leading` (`src/node/debug_print/pretty.rs` 33-40). -/
def leading (b : Block) : List Char :=
  match b.isLast, b.isFirst with
  | false, true => ['|', '-', '-']
  | false, false => ['|']
  | true, true => ['`', '-', '-']
  | true, false => []

/-- `as_str_trailing_spaces` (`src/node/debug_print/pretty.rs` 44-50). -/
def trailing (b : Block) : List Char :=
  match b.isLast, b.isFirst with
  | _, true => [' ']
  | false, false => [' ', ' ', ' ']
  | true, false => [' ', ' ', ' ', ' ']

/-- `is_all_whitespace` (`src/node/debug_print/pretty.rs` 55-57). -/
def isAllWhitespace (b : Block) : Bool := b.isLast && !b.isFirst

end Block

/-- `LineState` (`src/node/debug_print/pretty.rs` 61-71). -/
inductive LineState where
  | beforeIndent
  | partialIndent
  | content
  deriving DecidableEq, Repr

/-- `IndentWriter` (`src/node/debug_print/pretty.rs` 74-83); `out` is what was written to the formatter,
`indents` are in the order of the vector. -/
structure Writer where
  out : List Char
  line : LineState
  indents : List Block
  pending : Nat
  deriving DecidableEq, Repr

namespace Writer

/-- `new` (`src/node/debug_print/pretty.rs` 88-95). -/
def new : Writer := ⟨[], .beforeIndent, [], 0⟩

/-- `last_mut` and an assignment to `is_first_line`. -/
def modifyLast (f : Block → Block) : List Block → List Block
  | [] => []
  | [b] => [f b]
  | b :: bs => b :: modifyLast f bs

/-- `open_item` (`src/node/debug_print/pretty.rs` 102-117). -/
def openItem (w : Writer) (isLast : Bool) : Writer :=
  let w := if w.line ≠ .beforeIndent then ⟨w.out ++ ['\n'], .beforeIndent, w.indents, 0⟩ else w
  { w with indents := modifyLast (fun b => { b with isFirst := false }) w.indents ++ [⟨isLast, true⟩] }

/-- `close_item` (`src/node/debug_print/pretty.rs` 125-130); `none` is `Err(())`. -/
def closeItem (w : Writer) : Option Writer :=
  match w.indents with
  | [] => none
  | _ => some { w with indents := w.indents.dropLast }

/-- `write_indent_partial` (`src/node/debug_print/pretty.rs` 133-151). -/
def writeIndentPartial (w : Writer) : Writer :=
  let pending := (w.indents.reverse.takeWhile Block.isAllWhitespace).length
  let toPrint := w.indents.take (w.indents.length - pending)
  match toPrint.getLast? with
  | some last =>
    { w with pending := pending, out := w.out ++ (toPrint.dropLast.map Block.asStr).flatten ++ last.leading }
  | none => { w with pending := pending }

/-- `complete_partial_indent` (`src/node/debug_print/pretty.rs` 154-168); the subtraction and the
indexing may panic. -/
def completePartialIndent (w : Writer) : Except Fault Writer := do
  if w.indents.length < w.pending then .error (.panic "attempt to subtract with overflow")
  else
    let out ← match w.indents.length - w.pending with
      | 0 => .ok w.out
      | k + 1 => match w.indents[k]? with
        | some b => .ok (w.out ++ b.trailing)
        | none => .error (.panic "index out of bounds")
    return { w with
      out := out ++ (List.replicate w.pending [' ', ' ', ' ', ' ']).flatten
      pending := 0 }

/-- The part of `s` up to and including the first newline, whether there is one, and the rest
(`src/node/debug_print/pretty.rs` 181-185, 206). -/
def splitLine : List Char → List Char × Bool × List Char
  | [] => ([], false, [])
  | c :: s =>
    if c = '\n' then ([c], true, s)
    else let (a, b, r) := splitLine s; (c :: a, b, r)

/-- The indent of the current line, if it is not written yet (`src/node/debug_print/pretty.rs` 176-179,
193-195: the two halves are written one after the other, since there is always something to write). -/
def startLine (w : Writer) : Except Fault Writer :=
  if w.line = .beforeIndent then
    completePartialIndent { w.writeIndentPartial with line := .partialIndent }
  else if w.line = .partialIndent then w.completePartialIndent
  else .ok w

/-- What is written to the current line, and the end of the iteration
(`src/node/debug_print/pretty.rs` 196-205). -/
def writeContent (w : Writer) (content : List Char) (nl : Bool) : Writer where
  out := w.out ++ content
  line := if nl then .beforeIndent else .content
  indents := modifyLast (fun b => { b with isFirst := b.isFirst && !nl }) w.indents
  pending := w.pending

/-- The loop of `write_str` (`src/node/debug_print/pretty.rs` 172-211); the number bounds the number of
iterations. -/
def writeLoop : Nat → Writer → List Char → Except Fault Writer
  | _, w, [] => .ok w
  | 0, _, _ :: _ => .error .diverge
  | f + 1, w, s@(_ :: _) => do
    let w ← w.startLine
    let (content, nl, rest) := splitLine s
    writeLoop f (w.writeContent content nl) rest

/-- `write_str` (`src/node/debug_print/pretty.rs` 172-211). -/
def writeStr (w : Writer) (s : List Char) : Except Fault Writer := writeLoop s.length w s

/-- `write!`: the pieces one after the other. -/
def writeAll (w : Writer) : List (List Char) → Except Fault Writer
  | [] => .ok w
  | s :: ss => do
    let w ← w.writeStr s
    writeAll w ss

end Writer

/-- The text of a node (`src/node/debug_print/pretty.rs` 244-253, 257-266, 280-289, 293-302): the
pieces of its data as `fmt` formats it (`Display` or `Debug`, alternate or not), or `(borrowed)`. -/
def Heap.pieces (h : Heap α) (fmt : α → List (List Char)) (n : NodeId) : List (List Char) :=
  match h.borrowData n with
  | .ok d => fmt d
  | .error _ => ["(borrowed)".toList]

/-- `prepare_next_node_printing` (`src/node/debug_print/pretty.rs` 312-335). The number bounds the
number of events. -/
def Heap.prepareNext (h : Heap α) : Nat → Writer → Dft.State → Except Fault (Option NodeId × Writer × Dft.State)
  | 0, _, _ => .error .diverge
  | f + 1, w, s =>
    match h.linkDftNext s with
    | (none, s) => .ok (none, w, s)
    | (some (.opn n), s) => .ok (some n, w.openItem (h.next n).isNone, s)
    | (some (.cls _), s) =>
      match w.closeItem with
      | some w => prepareNext h f w s
      | none => .ok (none, w, s)

/-- The loop over the descendants (`src/node/debug_print/pretty.rs` 256-267, 292-303). -/
def Heap.prettyLoop (h : Heap α) (fmt : α → List (List Char)) : Nat → Writer → Dft.State →
    Except Fault Writer
  | 0, _, _ => .error .diverge
  | f + 1, w, s => do
    match ← h.prepareNext (2 * h.nNode + 2) w s with
    | (none, w, _) => return w
    | (some n, w, s) => do
      let w ← w.writeAll (h.pieces fmt n)
      prettyLoop h fmt f w s

/-- `fmt` of `DebugPrettyPrint` (`src/node/debug_print/pretty.rs` 236-270, 272-306): what
`node.debug_pretty_print()` prints.  The bound of the loop is larger than the number of events. -/
def Heap.pretty (h : Heap α) (fmt : α → List (List Char)) (n : NodeId) : Except Fault (List Char) := do
  let (_, s) := h.linkDftNext (Dft.start n)
  let w ← Writer.new.writeAll (h.pieces fmt n)
  let w ← h.prettyLoop fmt (2 * h.nNode + 2) w s
  return w.out

end Dendron
