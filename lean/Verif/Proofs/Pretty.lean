import Verif.Spec.Pretty
import Verif.Proofs.TryEq

/-! The pretty printer. -/

set_option linter.unusedSimpArgs false
set_option linter.unusedVariables false

set_option autoImplicit false

namespace Dendron
variable {α : Type}

/-- The whole indent. -/
def pref (l : List Block) : List Char := (l.map Block.asStr).flatten

theorem Block.asStr_split (b : Block) : b.asStr = b.leading ++ b.trailing := by
  obtain ⟨l, f⟩ := b
  cases l <;> cases f <;> rfl

theorem Block.asStr_ws {b : Block} (h : b.isAllWhitespace = true) : b.asStr = [' ', ' ', ' ', ' '] := by
  obtain ⟨l, f⟩ := b
  cases l <;> cases f <;> simp_all [isAllWhitespace, asStr]

theorem pref_ws : ∀ l : List Block, (∀ b ∈ l, b.isAllWhitespace = true) →
    pref l = (List.replicate l.length [' ', ' ', ' ', ' ']).flatten
  | [], _ => rfl
  | b :: l, h => by
    have := pref_ws l (fun x hx => h x (by simp [hx]))
    simp only [pref, List.map_cons, List.flatten_cons, List.length_cons, List.replicate_succ] at this ⊢
    rw [this, Block.asStr_ws (h b (by simp))]

theorem pref_append (a b : List Block) : pref (a ++ b) = pref a ++ pref b := by
  simp [pref]

namespace Writer

/-- The two halves of the indent give the indent. -/
theorem indent (w : Writer) (o : LineState) :
    completePartialIndent { w.writeIndentPartial with line := o } =
      .ok ⟨w.out ++ pref w.indents, o, w.indents, 0⟩ := by
  obtain ⟨out, line, I, p⟩ := w
  obtain ⟨A, hA⟩ : ∃ A, A = I.reverse.takeWhile Block.isAllWhitespace := ⟨_, rfl⟩
  obtain ⟨B, hB⟩ : ∃ B, B = I.reverse.dropWhile Block.isAllWhitespace := ⟨_, rfl⟩
  have hI : I = B.reverse ++ A.reverse := by
    have : I.reverse = A ++ B := by rw [hA, hB, List.takeWhile_append_dropWhile]
    rw [← List.reverse_reverse I, this]; simp
  have hws : ∀ b ∈ A.reverse, b.isAllWhitespace = true := by
    intro b hb
    rw [List.mem_reverse, hA] at hb
    exact List.all_eq_true.1 List.all_takeWhile b hb
  have hpA := pref_ws _ hws
  have hlen : I.length = B.length + A.length := by rw [hI]; simp
  have htake : I.take (I.length - A.length) = B.reverse := by
    rw [show I.length - A.length = B.reverse.length by simp; omega]
    rw [hI]; simp
  have hp : pref I = pref B.reverse ++ pref A.reverse := by rw [← pref_append, ← hI]
  simp only [writeIndentPartial, ← hA, htake]
  cases B with
  | nil =>
    simp only [List.reverse_nil, List.getLast?_nil]
    have : I.length = A.length := by simpa using hlen
    simp only [completePartialIndent, this, Nat.lt_irrefl, if_false, Nat.sub_self, bind, Except.bind, pure,
      Except.pure]
    rw [hp, hpA]; simp [pref]
  | cons b B =>
    have hk : I.length - A.length = B.length + 1 := by rw [hlen]; simp
    have hnl : ¬ I.length < A.length := by omega
    have hget : I[B.length]? = some b := by
      rw [hI]; simp
    simp only [List.reverse_cons, List.getLast?_append, List.getLast?_singleton, Option.some_or,
      completePartialIndent, hnl, if_false, hk, hget, bind, Except.bind, pure, Except.pure,
      List.dropLast_concat]
    rw [hp, hpA]
    simp only [List.reverse_cons, pref_append, pref, List.map_append, List.flatten_append, List.map_cons, List.map_nil, List.flatten_cons,
      List.flatten_nil, List.append_nil, Block.asStr_split b, List.length_reverse, List.append_assoc]

/-- Writing one character. -/
def step (w : Writer) (c : Char) : Writer where
  out := w.out ++ (if w.line = .beforeIndent then pref w.indents else []) ++ [c]
  line := if c = '\n' then .beforeIndent else .content
  indents := if c = '\n' then modifyLast (fun b => { b with isFirst := false }) w.indents else w.indents
  pending := 0

/-- Between two calls. -/
def Idle (w : Writer) : Prop := w.line ≠ .partialIndent ∧ w.pending = 0

theorem Idle.step {w : Writer} (c : Char) : Idle (w.step c) := by
  refine ⟨?_, rfl⟩
  simp only [Writer.step]; split <;> simp

theorem modifyLast_id {f : Block → Block} (hf : ∀ b, f b = b) : ∀ l, modifyLast f l = l
  | [] => rfl
  | [b] => by simp [modifyLast, hf]
  | b :: c :: l => by rw [modifyLast, modifyLast_id hf (c :: l)]; simp

theorem modifyLast_concat (f : Block → Block) : ∀ (l : List Block) (b : Block),
    modifyLast f (l ++ [b]) = l ++ [f b]
  | [], b => rfl
  | [a], b => rfl
  | a :: c :: l, b => by
    have := modifyLast_concat f (c :: l) b
    simp only [List.cons_append] at this ⊢
    rw [modifyLast, this]
    simp

theorem splitLine_eq : ∀ s : List Char,
    (∃ a, (∀ c ∈ a, c ≠ '\n') ∧ s = a ∧ splitLine s = (a, false, [])) ∨
    (∃ a r, (∀ c ∈ a, c ≠ '\n') ∧ s = a ++ '\n' :: r ∧ splitLine s = (a ++ ['\n'], true, r))
  | [] => .inl ⟨[], by simp, rfl, rfl⟩
  | c :: s => by
    by_cases e : c = '\n'
    · subst e
      exact .inr ⟨[], s, by simp, rfl, by simp [splitLine]⟩
    · rcases splitLine_eq s with ⟨a, h1, h2, h3⟩ | ⟨a, r, h1, h2, h3⟩
      · refine .inl ⟨c :: a, ?_, by rw [h2], by simp [splitLine, e, h3]⟩
        simp only [List.mem_cons]
        rintro x (rfl | hx)
        · exact e
        · exact h1 x hx
      · refine .inr ⟨c :: a, r, ?_, by rw [h2]; rfl, by simp [splitLine, e, h3]⟩
        simp only [List.mem_cons]
        rintro x (rfl | hx)
        · exact e
        · exact h1 x hx

/-- Writing a line without a newline. -/
theorem foldl_line : ∀ (a : List Char) (w : Writer), (∀ c ∈ a, c ≠ '\n') → w.pending = 0 →
    a.foldl step w = if a = [] then w else
      ⟨w.out ++ (if w.line = .beforeIndent then pref w.indents else []) ++ a, .content, w.indents, 0⟩
  | [], w, _, _ => rfl
  | c :: a, w, h, hp => by
    have hc : c ≠ '\n' := h c (by simp)
    rw [List.foldl_cons, foldl_line a _ (fun x hx => h x (by simp [hx])) rfl]
    cases a with
    | nil => simp [step, hc]
    | cons d a => simp [step, hc]

/-- `write_str` writes the characters one after the other. -/
theorem writeLoop_eq : ∀ (f : Nat) (w : Writer) (s : List Char), s.length ≤ f → Idle w →
    writeLoop f w s = .ok (s.foldl step w)
  | f, w, [], _, _ => by cases f <;> rfl
  | 0, w, c :: s, h, _ => by simp at h
  | f + 1, w, c :: s, h, hw => by
    obtain ⟨hw1, hw2⟩ := hw
    have hind : w.startLine = .ok ⟨w.out ++ (if w.line = .beforeIndent then pref w.indents else []),
        if w.line = .beforeIndent then .partialIndent else w.line, w.indents, 0⟩ := by
      unfold startLine
      by_cases e : w.line = .beforeIndent
      · simp only [e, if_true]; exact indent w _
      · simp only [e, if_false, hw1, List.append_nil]
        obtain ⟨o, l, I, p⟩ := w
        simp only at hw2; subst hw2; rfl
    rw [writeLoop]
    simp only [bind, Except.bind, hind, writeContent]
    rcases splitLine_eq (c :: s) with ⟨a, h1, h2, h3⟩ | ⟨a, r, h1, h2, h3⟩
    · simp only [h3]
      rw [writeLoop_eq f _ [] (by simp) ⟨by simp, rfl⟩, h2, foldl_line a w h1 hw2]
      have : a ≠ [] := by rw [← h2]; simp
      simp [this, modifyLast_id]
    · simp only [h3]
      have hlen : r.length ≤ f := by
        have := congrArg List.length h2
        simp at this h; omega
      rw [writeLoop_eq f _ r hlen ⟨by simp, rfl⟩, h2, List.foldl_append, List.foldl_cons,
        foldl_line a w h1 hw2]
      congr 1
      congr 1
      by_cases ha : a = []
      · simp [ha, step]
      · simp [ha, step]

theorem writeStr_eq (w : Writer) (s : List Char) (hw : Idle w) : w.writeStr s = .ok (s.foldl step w) :=
  writeLoop_eq _ w s (Nat.le_refl _) hw

theorem Idle.foldl {w : Writer} (hw : Idle w) : ∀ s : List Char, Idle (s.foldl Writer.step w)
  | [] => hw
  | c :: s => by rw [List.foldl_cons]; exact Idle.foldl (Idle.step c) s

theorem writeAll_eq : ∀ (l : List (List Char)) (w : Writer), Idle w →
    w.writeAll l = .ok (l.flatten.foldl step w)
  | [], w, hw => rfl
  | s :: l, w, hw => by
    simp only [writeAll, writeStr_eq w s hw, bind, Except.bind, List.flatten_cons, List.foldl_append]
    exact writeAll_eq l _ (hw.foldl s)


/-- The blocks after the first line of the last item. -/
def unf (l : List Block) : List Block := modifyLast (fun b => { b with isFirst := false }) l

theorem unf_nil : unf [] = [] := rfl

theorem unf_concat (l : List Block) (b : Block) : unf (l ++ [b]) = l ++ [⟨b.isLast, false⟩] :=
  modifyLast_concat _ l b

theorem unf_unf (l : List Block) : unf (unf l) = unf l := by
  rcases List.eq_nil_or_concat l with rfl | ⟨l, b, rfl⟩
  · rfl
  · rw [List.concat_eq_append, unf_concat, unf_concat]

theorem unf_dropLast (l : List Block) : (unf l).dropLast = l.dropLast := by
  rcases List.eq_nil_or_concat l with rfl | ⟨l, b, rfl⟩
  · rfl
  · rw [List.concat_eq_append, unf_concat]; simp

/-- Writing a text. -/
theorem foldl_eq : ∀ (s : List Char) (w : Writer), w.pending = 0 →
    (s.foldl step w).out = w.out ++ prefixed (pref w.indents) (pref (unf w.indents))
      (decide (w.line = .beforeIndent)) s ∧
    unf (s.foldl step w).indents = unf w.indents ∧ (s.foldl step w).indents.dropLast = w.indents.dropLast
  | [], w, _ => by simp [prefixed]
  | c :: s, w, hp => by
    obtain ⟨h1, h2, h3⟩ := foldl_eq s (w.step c) rfl
    rw [List.foldl_cons, h1, h2, h3]
    by_cases e : c = '\n'
    · subst e
      have hu : unf (w.step '\n').indents = unf w.indents := by simp only [step, if_true]; exact unf_unf _
      refine ⟨?_, hu, ?_⟩
      · rw [hu]
        have hi : (w.step '\n').indents = unf w.indents := by simp only [step, if_true]; rfl
        rw [hi]
        by_cases hb : w.line = .beforeIndent <;> simp [prefixed, step, hb]
      · simp only [step, if_true]; exact unf_dropLast _
    · have hi : (w.step c).indents = w.indents := by simp [step, e]
      rw [hi]
      refine ⟨?_, rfl, rfl⟩
      by_cases hb : w.line = .beforeIndent <;> simp [prefixed, step, hb, e]

/-- The line state says whether there is an open line. -/
def Good (w : Writer) : Prop :=
  Idle w ∧ (w.line = .beforeIndent ↔ (w.out = [] ∨ w.out.getLast? = some '\n'))

theorem Good.step {w : Writer} (c : Char) : Good (w.step c) := by
  refine ⟨Idle.step c, ?_⟩
  by_cases e : c = '\n' <;> simp [Writer.step, e]

theorem Good.foldl {w : Writer} (hw : Good w) : ∀ s : List Char, Good (s.foldl Writer.step w)
  | [] => hw
  | c :: s => by rw [List.foldl_cons]; exact Good.foldl (Good.step c) s

theorem Good.openItem {w : Writer} (hw : Good w) (b : Bool) :
    w.openItem b = ⟨endLine w.out, .beforeIndent, unf w.indents ++ [⟨b, true⟩], 0⟩ := by
  obtain ⟨⟨h1, h2⟩, h3⟩ := hw
  obtain ⟨out, line, I, p⟩ := w
  simp only at h1 h2 h3
  subst h2
  by_cases e : line = .beforeIndent
  · subst e
    have : endLine out = out := by
      unfold endLine
      rcases h3.1 rfl with h | h
      · simp [h]
      · simp [h]
    simp [Writer.openItem, this, unf]
  · have : endLine out = out ++ ['\n'] := by
      have h4 : ¬ (out = [] ∨ out.getLast? = some '\n') := fun h => e (h3.2 h)
      unfold endLine
      cases h : out.getLast? with
      | none => simp [List.getLast?_eq_none_iff] at h; simp [h] at h4
      | some c =>
        have : c ≠ '\n' := by rintro rfl; exact h4 (.inr h)
        simp [this]
    simp [Writer.openItem, this, e, unf]

theorem endLine_good (out : List Char) : endLine out = [] ∨ (endLine out).getLast? = some '\n' := by
  unfold endLine
  cases h : out.getLast? with
  | none => simp [List.getLast?_eq_none_iff] at h; simp [h]
  | some c =>
    by_cases e : c = '\n'
    · simp [e, h]
    · simp [e]

/-- The effect of the events. -/
def evRun (txt : NodeId → List Char) (last : NodeId → Bool) : List (DftEvent NodeId) → Writer → Writer
  | [], w => w
  | .opn n :: l, w => evRun txt last l ((txt n).foldl step (w.openItem (last n)))
  | .cls _ :: l, w => match w.closeItem with
    | some w => evRun txt last l w
    | none => w

/-- What an item adds to the output. -/
def emit (out : List Char) (i : Item) : List Char := endLine out ++ prefixed i.first i.rest true i.text

mutual
/-- `last` is right for all nodes below the root. -/
def LastOK (last : NodeId → Bool) : RTree NodeId → Prop
  | .node _ cs => LastOKL last cs
/-- ... for all nodes of the trees. -/
def LastOKL (last : NodeId → Bool) : List (RTree NodeId) → Prop
  | [] => True
  | c :: cs => last c.label = cs.isEmpty ∧ LastOK last c ∧ LastOKL last cs
end

theorem asStr_first (b : Bool) :
    Block.asStr ⟨b, true⟩ = if b then "`-- ".toList else "|-- ".toList := by
  cases b <;> rfl

theorem asStr_rest (b : Bool) :
    Block.asStr ⟨b, false⟩ = if b then "    ".toList else "|   ".toList := by
  cases b <;> rfl

mutual
theorem evRun_tree (txt : NodeId → List Char) (last : NodeId → Bool) : ∀ (t : RTree NodeId) (b : Bool)
    (rest : List (DftEvent NodeId)) (w : Writer) (Q : List Block), last t.label = b → LastOK last t → Good w →
    unf w.indents = Q →
    ∃ w', evRun txt last (t.events ++ rest) w = evRun txt last rest w' ∧ Good w' ∧ w'.indents = Q ∧
      w'.out = ((t.map txt).items (pref Q ++ Block.asStr ⟨b, true⟩)
        (pref Q ++ Block.asStr ⟨b, false⟩)).foldl emit w.out
  | .node v cs, b, rest, w, Q, hb, hl, hw, hQ => by
    have hb : last v = b := hb
    have ho := hw.openItem b
    rw [hQ] at ho
    obtain ⟨w1, hw1⟩ : ∃ w1, w1 = (txt v).foldl step (w.openItem b) := ⟨_, rfl⟩
    have hgo : Good (w.openItem b) := by
      rw [ho]
      exact ⟨⟨by simp, rfl⟩, by simp only [true_iff]; exact endLine_good _⟩
    have hg1 : Good w1 := by rw [hw1]; exact hgo.foldl _
    obtain ⟨f1, f2, f3⟩ := foldl_eq (txt v) (w.openItem b) hgo.1.2
    rw [← hw1] at f1 f2 f3
    rw [ho] at f1 f2 f3
    rw [unf_concat] at f1 f2
    simp only [decide_true] at f1
    obtain ⟨w2, e2, hg2, hi2, ho2⟩ := evRun_trees txt last cs (.cls v :: rest) w1 (Q ++ [⟨b, false⟩])
      (by simpa [LastOK] using hl) hg1 f2
    have hd : w2.indents.dropLast = Q := by
      rw [← unf_dropLast, hi2]; simp
    have hne : w2.indents ≠ [] := by
      intro h; rw [h] at hi2; simp [unf_nil] at hi2
    have hc : w2.closeItem = some { w2 with indents := Q } := by
      unfold closeItem
      split
      · contradiction
      · rw [hd]
    refine ⟨{ w2 with indents := Q }, ?_, ⟨⟨hg2.1.1, hg2.1.2⟩, hg2.2⟩, rfl, ?_⟩
    · simp only [RTree.events, List.cons_append, List.append_assoc, List.nil_append, evRun, hb]
      rw [← hw1, e2]
      simp only [evRun, hc]
    · simp only [RTree.map, RTree.items, List.foldl_cons]
      rw [ho2, f1, pref_append, pref_append]
      simp [emit, pref]
theorem evRun_trees (txt : NodeId → List Char) (last : NodeId → Bool) : ∀ (cs : List (RTree NodeId))
    (rest : List (DftEvent NodeId)) (w : Writer) (Q : List Block), LastOKL last cs → Good w →
    unf w.indents = Q →
    ∃ w', evRun txt last (RTree.eventsL cs ++ rest) w = evRun txt last rest w' ∧ Good w' ∧
      unf w'.indents = Q ∧ w'.out = (RTree.itemsL (pref Q) (RTree.mapL txt cs)).foldl emit w.out
  | [], rest, w, Q, hl, hw, hQ => ⟨w, by simp [RTree.eventsL], hw, hQ, by simp [RTree.mapL, RTree.itemsL]⟩
  | c :: cs, rest, w, Q, hl, hw, hQ => by
    rw [LastOKL] at hl
    obtain ⟨w1, e1, g1, i1, o1⟩ := evRun_tree txt last c cs.isEmpty (RTree.eventsL cs ++ rest) w Q hl.1 hl.2.1 hw hQ
    have hQ1 : unf w1.indents = Q := by rw [i1, ← hQ, unf_unf]
    obtain ⟨w2, e2, g2, i2, o2⟩ := evRun_trees txt last cs rest w1 Q hl.2.2 g1 hQ1
    refine ⟨w2, ?_, g2, i2, ?_⟩
    · rw [RTree.eventsL, List.append_assoc, e1, e2]
    · rw [o2, o1, RTree.mapL, RTree.itemsL, asStr_first, asStr_rest]
      have : (RTree.mapL txt cs).isEmpty = cs.isEmpty := by cases cs <;> simp [RTree.mapL]
      rw [this]
      cases hc : cs.isEmpty <;> simp [List.foldl_append]
end

/-- Opening items keeps the writer between two calls. -/
theorem Idle.openItem {w : Writer} (hw : Idle w) (b : Bool) : Idle (w.openItem b) := by
  unfold Writer.openItem
  by_cases e : w.line = .beforeIndent
  · simp only [e, ne_eq, not_true_eq_false, if_false]
    exact ⟨by simp [e], hw.2⟩
  · simp only [e, ne_eq, not_false_eq_true, if_true]
    exact ⟨by simp, rfl⟩

theorem Idle.closeItem {w w' : Writer} (hw : Idle w) (e : w.closeItem = some w') : Idle w' := by
  unfold Writer.closeItem at e
  split at e
  · simp at e
  · simp only [Option.some.injEq] at e; subst e; exact hw

end Writer

open Writer

theorem Heap.prepareNext_spec {h : Heap α} (txt : NodeId → List Char) : ∀ {l : List (DftEvent NodeId)} {s : Dft.State}
    {f : Nat} {w : Writer}, LYields h s l → l.length < f → Idle w →
    ∃ r w' s', h.prepareNext f w s = .ok (r, w', s') ∧ Idle w' ∧
      match r with
      | none => evRun txt (fun n => (h.next n).isNone) l w = w'
      | some n => ∃ l', LYields h s' l' ∧ l'.length < l.length ∧
          evRun txt (fun n => (h.next n).isNone) l w =
            evRun txt (fun n => (h.next n).isNone) l' ((txt n).foldl step w')
  | _, _, 0, _, _, hf, _ => by omega
  | [], s, f + 1, w, .done e, _, hw => ⟨none, w, _, by simp [Heap.prepareNext, e]; rfl, hw, rfl⟩
  | .opn n :: l, s, f + 1, w, .more e k, _, hw =>
    ⟨some n, w.openItem (h.next n).isNone, _, by simp [Heap.prepareNext, e], hw.openItem _, l, k, by simp, rfl⟩
  | .cls n :: l, s, f + 1, w, .more (s' := s') e k, hf, hw => by
    cases hc : w.closeItem with
    | none => exact ⟨none, w, s', by simp [Heap.prepareNext, e, hc], hw, by simp [evRun, hc]⟩
    | some w1 =>
      obtain ⟨r, w', s'', h1, h2, h3⟩ := Heap.prepareNext_spec txt (f := f) k
        (by simp at hf; omega) (hw.closeItem hc)
      refine ⟨r, w', s'', by simp [Heap.prepareNext, e, hc, h1], h2, ?_⟩
      cases r with
      | none => simpa [evRun, hc] using h3
      | some m =>
        obtain ⟨l', a, b, c⟩ := h3
        exact ⟨l', a, by simp; omega, by simpa [evRun, hc] using c⟩

theorem Heap.prettyLoop_spec {h : Heap α} (fmt : α → List (List Char)) : ∀ {f : Nat} {l : List (DftEvent NodeId)}
    {s : Dft.State} {w : Writer}, LYields h s l → l.length < f → l.length < 2 * h.nNode + 2 → Idle w →
    h.prettyLoop fmt f w s =
      .ok (evRun (fun n => (h.pieces fmt n).flatten) (fun n => (h.next n).isNone) l w)
  | 0, _, _, _, _, hf, _, _ => by omega
  | f + 1, l, s, w, k, hf, hf', hw => by
    obtain ⟨r, w', s', h1, h2, h3⟩ := Heap.prepareNext_spec (fun n => (h.pieces fmt n).flatten) k hf' hw
    cases r with
    | none =>
      simp only at h3
      simp only [Heap.prettyLoop, h1, bind, Except.bind, pure, Except.pure, h3]
    | some n =>
      obtain ⟨l', a, b, c⟩ := h3
      simp only [Heap.prettyLoop, h1, bind, Except.bind, writeAll_eq _ _ h2]
      rw [Heap.prettyLoop_spec fmt a (by omega) (by omega) (h2.foldl _), c]

theorem Heap.pieces_flatten (h : Heap α) (fmt : α → List (List Char)) (n : NodeId) :
    (h.pieces fmt n).flatten = h.textOf fmt n := by
  unfold Heap.pieces Heap.textOf Heap.borrowData
  cases h.mutB n <;> cases h.data n <;> simp

mutual
theorem FShape.lastOK {h : Heap α} {ch : NodeId → List NodeId} (S : FShape h ch) : ∀ (t : RTree NodeId),
    Hier ch t → LastOK (fun n => (h.next n).isNone) t
  | .node v cs, H => by
    simp only [Hier] at H
    rw [LastOK]
    exact S.lastOKL v cs [] (by simpa using H.1.symm) H.2
theorem FShape.lastOKL {h : Heap α} {ch : NodeId → List NodeId} (S : FShape h ch) (v : NodeId) :
    ∀ (cs : List (RTree NodeId)) (l1 : List NodeId), ch v = l1 ++ cs.map RTree.label → HierL ch cs →
    LastOKL (fun n => (h.next n).isNone) cs
  | [], _, _, _ => trivial
  | c :: cs, l1, e, H => by
    rw [HierL] at H
    rw [LastOKL]
    refine ⟨?_, S.lastOK c H.1, S.lastOKL v cs (l1 ++ [c.label]) (by simp [e]) H.2⟩
    rw [S.next_at (by simpa using e)]
    cases cs <;> simp
end

theorem FShape.pretty {h : Heap α} {ch : NodeId → List NodeId} (W : FShape h ch) (fmt : α → List (List Char))
    {n : NodeId} {t : RTree NodeId} (ha : h.alive n = true) (ht : SubtreeAt ch n t) :
    h.pretty fmt n = .ok (t.map (h.textOf fmt)).drawing := by
  have hy := W.lyields ha ht
  have hlen := events_length t
  have hsz := ht.size_le W ha
  have hlast := W.lastOK t ht.2
  have hn := ht.1
  cases t with
  | node v cs =>
    have hn : v = n := hn
    subst hn
    rw [events_dropLast] at hy
    have hlen2 : (RTree.eventsL cs).length + 2 = 2 * (RTree.node v cs).nodes.length := by
      rw [← hlen]; simp [RTree.events]
    generalize hst : Dft.start v = st at hy
    cases hy with
    | more e k =>
      have htxt : (fun n => (h.pieces fmt n).flatten) = h.textOf fmt := funext (h.pieces_flatten fmt)
      have hnew : Good Writer.new := ⟨⟨by simp [Writer.new], rfl⟩, by simp [Writer.new]⟩
      simp only [Heap.pretty, hst, e, bind, Except.bind, pure, Except.pure, writeAll_eq _ _ hnew.1,
        h.pieces_flatten]
      rw [Heap.prettyLoop_spec fmt k (by omega) (by omega) (hnew.1.foldl _), htxt]
      obtain ⟨f1, f2, f3⟩ := foldl_eq (h.textOf fmt v) Writer.new rfl
      obtain ⟨w', e1, g1, i1, o1⟩ := evRun_trees (h.textOf fmt) (fun n => (h.next n).isNone) cs [] _ [] hlast
        (hnew.foldl (h.textOf fmt v)) (by rw [f2]; rfl)
      rw [List.append_nil] at e1
      simp only [e1, evRun, o1, f1]
      simp only [RTree.drawing, RTree.map, RTree.items, List.foldl_cons]
      rfl

end Dendron
