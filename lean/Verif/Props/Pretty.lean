import Verif.Proofs.Pretty
import Verif.Proofs.Demo

/-!
# C49: pretty printing

`fmt` gives the pieces that the `Display` (or `Debug`) implementation of the data writes, one call of
`write_str` for each.  `RTree.drawing` is the specification (`Verif.Spec.Pretty`): every node on its own
lines, the first line after `|-- ` or `` `-- ``, the others after `|   ` or four blanks, all after the
prefix of the ancestors.
-/

set_option autoImplicit false

namespace Dendron
open RTree

variable {α : Type} {h : Heap α} {ch : NodeId → List NodeId} {n : NodeId} {t : RTree NodeId}

/-- `debug_pretty_print` terminates without a panic and prints the drawing of the tree of texts. -/
theorem C49_drawing (W : FShape h ch) (fmt : α → List (List Char)) (ha : h.alive n = true)
    (ht : SubtreeAt ch n t) : h.pretty fmt n = .ok (t.map (h.textOf fmt)).drawing :=
  W.pretty fmt ha ht

/-- The output does not depend on how the texts are split into calls. -/
theorem C49_chunks (W : FShape h ch) (fmt fmt' : α → List (List Char))
    (he : ∀ d, (fmt d).flatten = (fmt' d).flatten) (ha : h.alive n = true) (ht : SubtreeAt ch n t) :
    h.pretty fmt n = h.pretty fmt' n := by
  rw [W.pretty fmt ha ht, W.pretty fmt' ha ht]
  have : h.textOf fmt = h.textOf fmt' := by
    funext x; unfold Heap.textOf; split <;> simp [he]
  rw [this]

/-- The output depends only on the shape and on the texts of the nodes: two trees, perhaps in different
heaps and with different data types, print the same if their trees of texts are equal. -/
theorem C49_shape {β : Type} {g : Heap β} {ch' : NodeId → List NodeId} {m : NodeId} {u : RTree NodeId}
    (W : FShape h ch) (V : FShape g ch') (fmt : α → List (List Char)) (fmt' : β → List (List Char))
    (ha : h.alive n = true) (hb : g.alive m = true) (ht : SubtreeAt ch n t) (hu : SubtreeAt ch' m u)
    (he : t.map (h.textOf fmt) = u.map (g.textOf fmt')) : h.pretty fmt n = g.pretty fmt' m := by
  rw [W.pretty fmt ha ht, V.pretty fmt' hb hu, he]

/-- No open line. -/
def Ended (out : List Char) : Prop := out = [] ∨ out.getLast? = some '\n'

theorem linesOf_append : ∀ {a : List Char} (b : List Char), Ended a → linesOf (a ++ b) = linesOf a ++ linesOf b
  | [], b, _ => rfl
  | c :: a, b, e => by
    have e' : c = '\n' ∨ Ended a ∧ a ≠ [] := by
      rcases e with e | e
      · simp at e
      · cases a with
        | nil => simp at e; exact .inl e
        | cons d a => exact .inr ⟨.inr (by simpa [List.getLast?_cons_cons] using e), by simp⟩
    by_cases hc : c = '\n'
    · by_cases ha : a = []
      · subst ha; simp [linesOf, hc]
      · rcases e with e | e
        · simp at e
        · have : Ended a := .inr (by
            cases a with
            | nil => simp at ha
            | cons d a => simpa [List.getLast?_cons_cons] using e)
          simp [linesOf, hc, linesOf_append b this]
    · obtain ⟨h1, h2⟩ := e'.resolve_left hc
      have ih := linesOf_append b h1
      have hne : linesOf a ≠ [] := by
        cases a with
        | nil => simp at h2
        | cons d a =>
          simp only [linesOf]; split
          · simp
          · split <;> simp
      simp only [List.cons_append, linesOf, hc, if_false, ih]
      cases hl : linesOf a with
      | nil => exact absurd hl hne
      | cons l ls => simp

theorem linesOf_endLine (a : List Char) : linesOf (endLine a) = linesOf a := by
  unfold endLine
  cases h : a.getLast? with
  | none => rfl
  | some c =>
    by_cases e : c = '\n'
    · simp [e]
    · simp only [e, if_false]
      obtain ⟨b, rfl⟩ : ∃ b, a = b ++ [c] := ⟨a.dropLast, by
        have hne : a ≠ [] := by rintro rfl; simp at h
        rw [List.getLast?_eq_some_getLast hne] at h
        simp only [Option.some.injEq] at h
        rw [← h, List.dropLast_concat_getLast]⟩
      clear h
      induction b with
      | nil => simp [linesOf, e]
      | cons d b ih =>
        simp only [List.cons_append, List.nil_append, List.append_assoc] at ih ⊢
        simp only [linesOf, ih]

theorem linesOf_pre : ∀ {p : List Char} (s : List Char), '\n' ∉ p → s ≠ [] →
    linesOf (p ++ s) = match linesOf s with
      | [] => []
      | l :: ls => (p ++ l) :: ls
  | [], s, _, _ => by cases h : linesOf s <;> simp [h]
  | c :: p, s, hp, hs => by
    simp only [List.mem_cons, not_or] at hp
    have ih := linesOf_pre s hp.2 hs
    have hc : c ≠ '\n' := fun e => hp.1 e.symm
    have hne : linesOf s ≠ [] := by
      cases s with
      | nil => simp at hs
      | cons d a =>
        simp only [linesOf]; split
        · simp
        · split <;> simp
    simp only [List.cons_append, linesOf, hc, if_false, ih]
    cases hl : linesOf s with
    | nil => exact absurd hl hne
    | cons l ls => simp

theorem prefixed_true (f r : List Char) : ∀ s : List Char, s ≠ [] →
    prefixed f r true s = f ++ prefixed f r false s
  | [], h => by simp at h
  | c :: s, _ => by simp [prefixed]

theorem prefixed_ne (f r : List Char) : ∀ s : List Char, s ≠ [] → prefixed f r false s ≠ []
  | [], h => by simp at h
  | c :: s, _ => by simp [prefixed]

theorem linesOf_prefixed : ∀ (s f r : List Char), '\n' ∉ f → '\n' ∉ r →
    (linesOf (prefixed f r false s) = match linesOf s with
      | [] => []
      | l :: ls => l :: ls.map (r ++ ·)) ∧
    linesOf (prefixed f r true s) = Item.lines ⟨f, r, s⟩
  | [], f, r, hf, hr => by simp [prefixed, linesOf, Item.lines]
  | c :: s, f, r, hf, hr => by
    have h1 : linesOf (prefixed f r false (c :: s)) = match linesOf (c :: s) with
      | [] => []
      | l :: ls => l :: ls.map (r ++ ·) := by
      by_cases e : c = '\n'
      · have ih := (linesOf_prefixed s r r hr hr).2
        simp only [prefixed, e, if_true, linesOf, ih, Item.lines, Bool.false_eq_true, if_false,
          List.nil_append]
        cases linesOf s <;> simp
      · have ih := (linesOf_prefixed s f r hf hr).1
        simp only [prefixed, e, if_false, linesOf, ih, Bool.false_eq_true, List.nil_append]
        cases linesOf s <;> simp
    refine ⟨h1, ?_⟩
    rw [prefixed_true f r _ (by simp), linesOf_pre _ hf (prefixed_ne f r _ (by simp)), h1]
    simp only [Item.lines]
    cases linesOf (c :: s) <;> simp

theorem fold_lines : ∀ (l : List Item) (out : List Char), (∀ i ∈ l, '\n' ∉ i.first ∧ '\n' ∉ i.rest) →
    linesOf (l.foldl (fun out i => endLine out ++ prefixed i.first i.rest true i.text) out) =
      linesOf out ++ (l.map Item.lines).flatten
  | [], out, _ => by simp
  | i :: l, out, H => by
    have hi := H i (by simp)
    rw [List.foldl_cons, fold_lines l _ (fun j hj => H j (by simp [hj])),
      linesOf_append _ (Writer.endLine_good out), linesOf_endLine,
      (linesOf_prefixed i.text i.first i.rest hi.1 hi.2).2]
    simp

mutual
theorem items_pre : ∀ (u : RTree (List Char)) (f r : List Char), '\n' ∉ f → '\n' ∉ r →
    ∀ i ∈ u.items f r, '\n' ∉ i.first ∧ '\n' ∉ i.rest
  | .node s cs, f, r, hf, hr, i, hi => by
    simp only [RTree.items, List.mem_cons] at hi
    rcases hi with rfl | hi
    · exact ⟨hf, hr⟩
    · exact itemsL_pre cs r hr i hi
theorem itemsL_pre : ∀ (cs : List (RTree (List Char))) (p : List Char), '\n' ∉ p →
    ∀ i ∈ RTree.itemsL p cs, '\n' ∉ i.first ∧ '\n' ∉ i.rest
  | [], _, _, i, hi => by simp [RTree.itemsL] at hi
  | c :: cs, p, hp, i, hi => by
    rw [RTree.itemsL, List.mem_append] at hi
    rcases hi with hi | hi
    · split at hi
      · exact items_pre c _ _ (by simp [hp]) (by simp [hp]) i hi
      · exact items_pre c _ _ (by simp [hp]) (by simp [hp]) i hi
    · exact itemsL_pre cs p hp i hi
end

/-- A format with several pieces and a newline, for the examples. -/
private def demoFmt (d : Nat) : List (List Char) := ["n".toList, (Nat.repr d).toList, [], "\nx".toList]

example : Demo.heap.pretty demoFmt 0 =
    .ok ("n10\nx\n|-- n11\n|   x\n|-- n12\n|   x\n|   |-- n14\n|   |   x\n|   `-- n15\n" ++
      "|       x\n`-- n13\n    x").toList := by rfl

example : Demo.heap.pretty demoFmt 2 =
    .ok (RTree.map (Demo.heap.textOf demoFmt) (.node 2 [.node 4 [], .node 5 []])).drawing :=
  C49_drawing Demo.wf.toFShape demoFmt rfl ⟨rfl, by simp [Hier, HierL, Demo.ch, RTree.label]⟩

example : Demo.heap.pretty demoFmt 2 = Demo.heap.pretty (fun d => [(demoFmt d).flatten]) 2 :=
  C49_chunks (t := .node 2 [.node 4 [], .node 5 []]) Demo.wf.toFShape _ _ (fun d => by simp) rfl
    ⟨rfl, by simp [Hier, HierL, Demo.ch, RTree.label]⟩

/-- While the data of a node is mutably borrowed, its text is `(borrowed)`. -/
theorem C49_borrowed (fmt : α → List (List Char)) (hb : h.mutB n = true) :
    h.textOf fmt n = "(borrowed)".toList := by
  unfold Heap.textOf; rw [hb]

example : ({ Demo.heap with mutB := upd Demo.heap.mutB 4 true } : Heap Nat).pretty demoFmt 2 =
    .ok "n12\nx\n|-- (borrowed)\n`-- n15\n    x".toList := by rfl

/-- Every line of a node carries the prefix of its position: the lines of the output are the lines of
the nodes in pre-order, each after its prefix. -/
theorem C49_lines (u : RTree (List Char)) :
    linesOf u.drawing = ((u.items [] []).map Item.lines).flatten := by
  have := fold_lines (u.items [] []) [] (items_pre u [] [] (by simp) (by simp))
  simpa [RTree.drawing, linesOf] using this

/-- A node prints one line for each line of its text (none for an empty text, not even its branch). -/
theorem C49_line_count (i : Item) : i.lines.length = (linesOf i.text).length := by
  unfold Item.lines
  cases linesOf i.text <;> simp

end Dendron
