import Verif.Model.Pretty
import Verif.Spec.RTree

/-!
# What the pretty printer must print
-/

set_option autoImplicit false

namespace Dendron

/-- The text `s`, its first line after the prefix `first`, its other lines after the prefix `rest`.
A line is everything up to and including a newline, or the nonempty end of the text. -/
def prefixed (first rest : List Char) : Bool → List Char → List Char
  | _, [] => []
  | atStart, c :: s =>
    (if atStart then first else []) ++ c ::
      (if c = '\n' then prefixed rest rest true s else prefixed first rest false s)

/-- The output with the last line ended: a newline is added unless there is no open line. -/
def endLine (out : List Char) : List Char :=
  match out.getLast? with
  | none => out
  | some c => if c = '\n' then out else out ++ ['\n']

/-- A node to be printed: prefix of the first line, prefix of the other lines, and text. -/
structure Item where
  first : List Char
  rest : List Char
  text : List Char

mutual
/-- The items of a tree in pre-order; the arguments are the prefixes of its root. -/
def RTree.items (first rest : List Char) : RTree (List Char) → List Item
  | .node s cs => ⟨first, rest, s⟩ :: RTree.itemsL rest cs
/-- The items of the children of a node with the prefix `pre` of its inner lines. -/
def RTree.itemsL (pre : List Char) : List (RTree (List Char)) → List Item
  | [] => []
  | c :: cs =>
    (if cs.isEmpty then RTree.items (pre ++ "`-- ".toList) (pre ++ "    ".toList) c
      else RTree.items (pre ++ "|-- ".toList) (pre ++ "|   ".toList) c) ++ RTree.itemsL pre cs
end

/-- The drawing of a tree of texts: every node starts on a new line. -/
def RTree.drawing (t : RTree (List Char)) : List Char :=
  (t.items [] []).foldl (fun out i => endLine out ++ prefixed i.first i.rest true i.text) []

/-- The lines of a text, without the newlines (`str::lines`). -/
def linesOf : List Char → List (List Char)
  | [] => []
  | c :: s =>
    if c = '\n' then [] :: linesOf s
    else match linesOf s with
      | [] => [[c]]
      | l :: ls => (c :: l) :: ls

/-- The lines of an item: every line carries its prefix. -/
def Item.lines (i : Item) : List (List Char) :=
  match linesOf i.text with
  | [] => []
  | l :: ls => (i.first ++ l) :: ls.map (i.rest ++ ·)

/-- The text of a node: its formatted data, or `(borrowed)` while the data is mutably borrowed. -/
def Heap.textOf {α : Type} (h : Heap α) (fmt : α → List (List Char)) (n : NodeId) : List Char :=
  match h.mutB n, h.data n with
  | false, some d => (fmt d).flatten
  | _, _ => "(borrowed)".toList

end Dendron
