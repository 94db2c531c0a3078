import Verif.Props.Pretty
import Verif.Spec.Serial

/-!
# Drawings and event sequences determine the tree

A line below the root is a number of blocks `|   ` or four blanks, then `|-- ` or `` `-- ``, then the
text.  The second character tells a block from an end, so the lines of a child are those up to the next
one that has not a blank there.
-/

set_option autoImplicit false

namespace Dendron

/-- A text of exactly one line. -/
def OneLine (s : List Char) : Prop := s ≠ [] ∧ '\n' ∉ s

namespace Picture

/-- The lines of a list of items with one-line texts. -/
def rows (l : List Item) : List (List Char) := l.map fun i => i.first ++ i.text

theorem linesOf_one : ∀ {s : List Char}, OneLine s → linesOf s = [s]
  | [], h => absurd rfl h.1
  | [c], h => by
    have : c ≠ '\n' := fun e => h.2 (by simp [e])
    simp [linesOf, this]
  | c :: d :: s, h => by
    have hc : c ≠ '\n' := fun e => h.2 (by simp [e])
    have := linesOf_one (s := d :: s) ⟨by simp, fun e => h.2 (List.mem_cons_of_mem _ e)⟩
    rw [linesOf, if_neg hc, this]

theorem item_lines {i : Item} (h : OneLine i.text) : i.lines = [i.first ++ i.text] := by
  simp [Item.lines, linesOf_one h]

mutual
theorem items_text : ∀ (t : RTree (List Char)) (f r : List Char), ∀ i ∈ t.items f r, i.text ∈ t.nodes
  | .node s cs, f, r, i, hi => by
    simp only [RTree.items, List.mem_cons] at hi
    rcases hi with rfl | hi
    · simp [RTree.nodes]
    · simp [RTree.nodes, itemsL_text cs r i hi]
theorem itemsL_text : ∀ (cs : List (RTree (List Char))) (p : List Char),
    ∀ i ∈ RTree.itemsL p cs, i.text ∈ RTree.nodesL cs
  | [], _, i, hi => by simp [RTree.itemsL] at hi
  | c :: cs, p, i, hi => by
    rw [RTree.itemsL, List.mem_append] at hi
    rw [RTree.nodesL, List.mem_append]
    rcases hi with hi | hi
    · split at hi <;> exact .inl (items_text c _ _ i hi)
    · exact .inr (itemsL_text cs p i hi)
end

theorem lines_rows {l : List Item} (h : ∀ i ∈ l, OneLine i.text) :
    (l.map Item.lines).flatten = rows l := by
  induction l with
  | nil => rfl
  | cons i l ih =>
    rw [List.map_cons, List.flatten_cons, ih (fun j hj => h j (by simp [hj])), item_lines (h i (by simp))]
    rfl

mutual
theorem rows_items : ∀ (t : RTree (List Char)) (p f r : List Char),
    rows (t.items (p ++ f) (p ++ r)) = (rows (t.items f r)).map (p ++ ·)
  | .node s cs, p, f, r => by
    have := rows_itemsL cs p r
    simp only [rows] at this
    simp [RTree.items, rows, this]
theorem rows_itemsL : ∀ (cs : List (RTree (List Char))) (p r : List Char),
    rows (RTree.itemsL (p ++ r) cs) = (rows (RTree.itemsL r cs)).map (p ++ ·)
  | [], _, _ => rfl
  | c :: cs, p, r => by
    have ih := rows_itemsL cs p r
    have h1 := rows_items c p (r ++ "`-- ".toList) (r ++ "    ".toList)
    have h2 := rows_items c p (r ++ "|-- ".toList) (r ++ "|   ".toList)
    simp only [rows] at ih h1 h2
    simp only [← List.append_assoc] at h1 h2
    simp only [RTree.itemsL, rows, List.map_append, ih]
    split
    · simp only [h1]
    · simp only [h2]
end

/-- The lines of the children of a node, without the prefix of the node. -/
def below (cs : List (RTree (List Char))) : List (List Char) := rows (RTree.itemsL [] cs)

theorem below_cons (s : List Char) (ds cs : List (RTree (List Char))) :
    below (.node s ds :: cs) =
      ((if cs.isEmpty then "`-- ".toList else "|-- ".toList) ++ s) ::
        ((below ds).map ((if cs.isEmpty then "    ".toList else "|   ".toList) ++ ·) ++ below cs) := by
  have h : ∀ p : List Char, rows (RTree.itemsL p ds) = (below ds).map (p ++ ·) := fun p => by
    simpa [below] using rows_itemsL ds p []
  have hr : ∀ (a b : List Item), rows (a ++ b) = rows a ++ rows b := fun a b => by simp [rows]
  have hc : ∀ (i : Item) (b : List Item), rows (i :: b) = (i.first ++ i.text) :: rows b := fun _ _ => rfl
  have hb : rows (RTree.itemsL [] cs) = below cs := rfl
  rw [below, RTree.itemsL, hr, hb]
  cases cs.isEmpty
  · simp only [Bool.false_eq_true, if_false, RTree.items, hc, h, List.nil_append, List.cons_append]
  · simp only [if_true, RTree.items, hc, h, List.nil_append, List.cons_append]

/-- A line of a descendant of a child. -/
def inner (l : List Char) : Prop := l[1]? = some ' '

/-- The lines from a point between two children on. -/
def atChild (X : List (List Char)) : Prop := ∀ l, X.head? = some l → ¬ inner l

theorem below_atChild : ∀ cs, atChild (below cs)
  | [], l, h => by simp [below, rows, RTree.itemsL] at h
  | .node s ds :: cs, l, h => by
    rw [below_cons] at h
    simp only [List.head?_cons, Option.some.injEq] at h
    subst h
    split <;> simp [inner]

theorem split_unique : ∀ {A B X Y : List (List Char)}, (∀ l ∈ A, inner l) → (∀ l ∈ B, inner l) →
    atChild X → atChild Y → A ++ X = B ++ Y → A = B ∧ X = Y
  | [], [], _, _, _, _, _, _, e => ⟨rfl, e⟩
  | [], b :: B, X, Y, _, hB, hX, _, e => by
    have e' : X = b :: B ++ Y := e
    subst e'
    exact absurd (hB b (by simp)) (hX b (by simp))
  | a :: A, [], X, Y, hA, _, _, hY, e => by
    have e' : Y = a :: A ++ X := e.symm
    subst e'
    exact absurd (hA a (by simp)) (hY a (by simp))
  | a :: A, b :: B, X, Y, hA, hB, hX, hY, e => by
    simp only [List.cons_append, List.cons.injEq] at e
    obtain ⟨h1, h2⟩ := split_unique (fun l h => hA l (by simp [h])) (fun l h => hB l (by simp [h])) hX hY e.2
    exact ⟨by rw [e.1, h1], h2⟩

theorem below_inj : ∀ (cs ds : List (RTree (List Char))), below cs = below ds → cs = ds
  | [], [], _ => rfl
  | [], .node _ _ :: _, e => by rw [below_cons] at e; simp [below, rows, RTree.itemsL] at e
  | .node _ _ :: _, [], e => by rw [below_cons] at e; simp [below, rows, RTree.itemsL] at e
  | .node s xs :: cs, .node t ys :: ds, e => by
    rw [below_cons, below_cons, List.cons.injEq] at e
    obtain ⟨e1, e2⟩ := e
    have hl : cs.isEmpty = ds.isEmpty ∧ s = t := by
      cases h1 : cs.isEmpty <;> cases h2 : ds.isEmpty <;> simp [h1, h2] at e1 ⊢ <;> exact e1
    rw [hl.1] at e2
    have hin : ∀ (zs : List (RTree (List Char))) (b : Bool),
        ∀ l ∈ (below zs).map ((if b then "    ".toList else "|   ".toList) ++ ·), inner l := by
      intro zs b l h
      obtain ⟨k, -, rfl⟩ := List.mem_map.1 h
      cases b <;> simp [inner]
    obtain ⟨h1, h2⟩ := split_unique (hin _ _) (hin _ _) (below_atChild _) (below_atChild _) e2
    have h3 : below xs = below ys := by
      refine List.map_inj_right (fun a b h => ?_) |>.1 h1
      exact List.append_cancel_left h
    rw [hl.2, below_inj xs ys h3, below_inj cs ds h2]
termination_by cs => sizeOf cs

theorem drawing_inj {t u : RTree (List Char)} (ht : ∀ s ∈ t.nodes, OneLine s) (hu : ∀ s ∈ u.nodes, OneLine s)
    (e : t.drawing = u.drawing) : t = u := by
  have e' := congrArg linesOf e
  rw [C49_lines, C49_lines, lines_rows (fun i hi => ht _ (items_text _ _ _ i hi)),
    lines_rows (fun i hi => hu _ (items_text _ _ _ i hi))] at e'
  cases t with
  | node s cs =>
  cases u with
  | node r ds =>
  have h : ∀ (s : List Char) cs, rows (RTree.items [] [] (.node s cs)) = s :: below cs := fun s cs => by
    simp [RTree.items, rows, below]
  rw [h, h, List.cons.injEq] at e'
  rw [e'.1, below_inj _ _ e'.2]

variable {β : Type}

mutual
theorem steps_inj : ∀ (t u : RTree β) (X Y : List (Option β)),
    t.events.map DftEvent.toStep ++ X = u.events.map DftEvent.toStep ++ Y → t = u ∧ X = Y
  | .node v cs, .node w ds, X, Y, e => by
    simp only [RTree.events, List.map_cons, List.map_append, List.map_nil, DftEvent.toStep, List.cons_append,
      List.append_assoc, List.nil_append, List.cons.injEq, Option.some.injEq] at e
    obtain ⟨h1, h2⟩ := stepsL_inj cs ds X Y e.2
    exact ⟨by rw [e.1, h1], h2⟩
theorem stepsL_inj : ∀ (cs ds : List (RTree β)) (X Y : List (Option β)),
    (RTree.eventsL cs).map DftEvent.toStep ++ none :: X = (RTree.eventsL ds).map DftEvent.toStep ++ none :: Y →
      cs = ds ∧ X = Y
  | [], [], X, Y, e => by simpa [RTree.eventsL] using e
  | [], .node w ds :: es, X, Y, e => by
    simp [RTree.eventsL, RTree.events, DftEvent.toStep] at e
  | .node v cs :: es, [], X, Y, e => by
    simp [RTree.eventsL, RTree.events, DftEvent.toStep] at e
  | c :: cs, d :: ds, X, Y, e => by
    simp only [RTree.eventsL, List.map_append, List.append_assoc] at e
    obtain ⟨h1, h2⟩ := steps_inj c d _ _ e
    obtain ⟨h3, h4⟩ := stepsL_inj cs ds X Y h2
    exact ⟨by rw [h1, h3], h4⟩
end

end Picture

theorem Canonical.tree_eq {β : Type} {t u : RTree β} {l : List (Event β)} (h : Canonical t l)
    (h' : Canonical u l) : t = u := by
  refine (Picture.steps_inj t u [] [] ?_).1
  rw [← h.same, ← h'.same]

end Dendron
