import Verif.Proofs.CloneLoop
import Verif.Proofs.Rose

/-! Copying a subtree to a place inside itself: the traverser follows the builder and never reaches
it. -/

set_option autoImplicit false

namespace Dendron
open RTree
variable {α β : Type} {w w' w0 w1 : World α} {ch ch' ch0 ch1 : NodeId → List NodeId}
  {r c x n p m : NodeId} {T : TreeId} {d : α}

/-! ### Events and steps -/

/-- The events belonging to a sequence of steps, if the nodes `st` are open, innermost first. -/
def evs : List β → List (Option β) → List (DftEvent β)
  | _, [] => []
  | st, some v :: l => .opn v :: evs (v :: st) l
  | v :: st, none :: l => .cls v :: evs st l
  | [], none :: _ => []

mutual
theorem evs_steps : ∀ (t : RTree β) (st : List β) (l : List (Option β)),
    evs st (t.steps ++ l) = t.events ++ evs st l
  | .node v cs, st, l => by
    rw [steps_node, events]
    simp only [List.cons_append, List.append_assoc, evs, List.nil_append]
    rw [evs_stepsL cs]
    simp [evs]
theorem evs_stepsL : ∀ (cs : List (RTree β)) (st : List β) (l : List (Option β)),
    evs st (stepsL cs ++ l) = eventsL cs ++ evs st l
  | [], st, l => by simp [stepsL_nil, eventsL]
  | c :: cs, st, l => by
    rw [stepsL_cons, eventsL, List.append_assoc, evs_steps c, evs_stepsL cs, List.append_assoc]
end

theorem evs_prefix : ∀ (a : List (Option β)) (st : List β) (b : List (Option β)),
    ∃ z, evs st (a ++ b) = evs st a ++ z
  | [], st, b => ⟨evs st b, by simp [evs]⟩
  | some v :: a, st, b => by
    obtain ⟨z, hz⟩ := evs_prefix a (v :: st) b
    exact ⟨z, by simp [evs, hz]⟩
  | none :: a, [], b => ⟨[], by simp [evs]⟩
  | none :: a, v :: st, b => by
    obtain ⟨z, hz⟩ := evs_prefix a st b
    exact ⟨z, by simp [evs, hz]⟩

theorem evs_length_le : ∀ (a : List (Option β)) (st : List β), (evs st a).length ≤ a.length
  | [], st => by simp [evs]
  | some v :: a, st => by simp [evs, evs_length_le a (v :: st)]
  | none :: a, [] => by simp [evs]
  | none :: a, v :: st => by simp [evs, evs_length_le a st]

theorem evs_toStep : ∀ (a : List (Option β)) (st : List β) (b : List (Option β)),
    (evs st (a ++ b)).length = (a ++ b).length → (evs st a).map DftEvent.toStep = a
  | [], st, b, _ => by simp [evs]
  | some v :: a, st, b, h => by
    simp only [List.cons_append, evs, List.length_cons, Nat.add_right_cancel_iff] at h
    simp [evs, DftEvent.toStep, evs_toStep a (v :: st) b h]
  | none :: a, [], b, h => by simp [evs] at h
  | none :: a, v :: st, b, h => by
    simp only [List.cons_append, evs, List.length_cons, Nat.add_right_cancel_iff] at h
    simp [evs, DftEvent.toStep, evs_toStep a st b h]

/-- The events of a beginning of the steps of a tree. -/
theorem evs_of_tree {t : RTree β} {a b : List (Option β)} (e : t.steps = a ++ b) :
    (evs [] a).map DftEvent.toStep = a ∧ ∃ z, t.events = evs [] a ++ z := by
  have h := evs_steps t [] []
  simp only [List.append_nil, evs] at h
  rw [e] at h
  refine ⟨evs_toStep a [] b ?_, ?_⟩
  · rw [h, ← e]; simp [RTree.steps]
  · obtain ⟨z, hz⟩ := evs_prefix a [] b
    exact ⟨z, by rw [← h, hz]⟩

/-- Inside a tree something is open. -/
theorem steps_within {t : RTree β} {a b : List (Option β)} (e : t.steps = a ++ b) (ha : a ≠ [])
    (hb : b ≠ []) : a.countP Option.isNone < a.countP Option.isSome := by
  rcases steps_prefix t a b e.symm with h | ⟨k, u, h⟩
  · exact absurd h ha
  · have hbal := steps_balance u
    rw [← show a ++ List.replicate k none = u.steps from h] at hbal
    have h1 : (List.replicate k (none : Option β)).countP Option.isSome = 0 := by
      simp [List.countP_replicate]
    have h2 : (List.replicate k (none : Option β)).countP Option.isNone = k := by
      simp [List.countP_replicate]
    rw [List.countP_append, List.countP_append, h1, h2] at hbal
    have hk : k ≠ 0 := by
      rintro rfl
      have h' : a = u.steps := by simpa [Describes] using h
      rw [h'] at e
      have := steps_cancel t u [] b (by simpa using e)
      exact hb this.2.symm
    omega

/-! ### The place of a leaf in a tree -/

mutual
/-- The steps of a tree in which something was put below the leaf `m`. -/
theorem Hier.plug : ∀ (t : RTree NodeId), Hier ch1 t → t.nodes.Nodup → m ∈ t.nodes → ch1 m = [] →
    ∃ A B, (∀ v, some v ∈ A → v ∈ t.nodes ∧ v ≠ m) ∧ t.steps = A ++ some m :: none :: B ∧
      ∀ ch s, (∀ x ∈ t.nodes, x ≠ m → ch x = ch1 x) → SubtreeAt ch m s →
        ∃ t', t'.label = t.label ∧ Hier ch t' ∧ t'.steps = A ++ s.steps ++ B
  | .node v cs, ht, hn, hm, hl => by
    by_cases hv : m = v
    · subst hv
      have hcs : cs = [] := by
        have := ht.1; rw [hl] at this; simpa using this
      subst hcs
      refine ⟨[], [], by simp, by simp [steps_node, stepsL_nil], ?_⟩
      intro ch s _ hs
      exact ⟨s, hs.1, hs.2, by simp⟩
    · simp only [nodes, List.nodup_cons] at hn
      simp only [nodes, List.mem_cons, hv, false_or] at hm
      obtain ⟨A, B, h1, h2, h3⟩ := HierL.plug cs ht.2 hn.2 hm hl
      refine ⟨some v :: A, B ++ [none], ?_, ?_, ?_⟩
      · intro y hy
        simp only [List.mem_cons, Option.some.injEq] at hy
        rcases hy with rfl | hy
        · exact ⟨by simp [nodes], fun e => hv e.symm⟩
        · exact ⟨by simp [nodes, (h1 y hy).1], (h1 y hy).2⟩
      · rw [steps_node, h2]; simp
      · intro ch s hc hs
        obtain ⟨cs', g1, g2, g3⟩ := h3 ch s (fun x hx => hc x (by simp [nodes, hx])) hs
        refine ⟨.node v cs', rfl, ⟨?_, g2⟩, ?_⟩
        · rw [g1, ht.1, hc v (by simp [nodes]) (fun e => hv e.symm)]
        · rw [steps_node, g3]; simp
theorem HierL.plug : ∀ (cs : List (RTree NodeId)), HierL ch1 cs → (nodesL cs).Nodup → m ∈ nodesL cs →
    ch1 m = [] → ∃ A B, (∀ v, some v ∈ A → v ∈ nodesL cs ∧ v ≠ m) ∧
      stepsL cs = A ++ some m :: none :: B ∧
      ∀ ch s, (∀ x ∈ nodesL cs, x ≠ m → ch x = ch1 x) → SubtreeAt ch m s →
        ∃ cs', cs'.map label = cs.map label ∧ HierL ch cs' ∧ stepsL cs' = A ++ s.steps ++ B
  | [], _, _, hm, _ => by simp [nodesL] at hm
  | c :: cs, ht, hn, hm, hl => by
    simp only [nodesL, List.nodup_append] at hn
    obtain ⟨n1, n2, n3⟩ := hn
    simp only [nodesL, List.mem_append] at hm
    by_cases hmc : m ∈ c.nodes
    · obtain ⟨A, B, h1, h2, h3⟩ := Hier.plug c ht.1 n1 hmc hl
      refine ⟨A, B ++ stepsL cs, ?_, by rw [stepsL_cons, h2]; simp, ?_⟩
      · intro v hv; exact ⟨by simp [nodesL, (h1 v hv).1], (h1 v hv).2⟩
      · intro ch s hc hs
        obtain ⟨c', g1, g2, g3⟩ := h3 ch s (fun x hx => hc x (by simp [nodesL, hx])) hs
        refine ⟨c' :: cs, by simp [g1], ⟨g2, ht.2.congr ?_⟩, by rw [stepsL_cons, g3]; simp⟩
        intro x hx
        refine hc x (by simp [nodesL, hx]) ?_
        rintro rfl; exact n3 x hmc x hx rfl
    · have hm' : m ∈ nodesL cs := hm.resolve_left hmc
      obtain ⟨A, B, h1, h2, h3⟩ := HierL.plug cs ht.2 n2 hm' hl
      refine ⟨c.steps ++ A, B, ?_, by rw [stepsL_cons, h2]; simp, ?_⟩
      · intro v hv
        simp only [List.mem_append] at hv
        rcases hv with hv | hv
        · have : v ∈ c.nodes := by
            rw [nodes_steps]; exact List.mem_filterMap.2 ⟨some v, hv, rfl⟩
          exact ⟨by simp [nodesL, this], by rintro rfl; exact hmc this⟩
        · exact ⟨by simp [nodesL, (h1 v hv).1], (h1 v hv).2⟩
      · intro ch s hc hs
        obtain ⟨cs', g1, g2, g3⟩ := h3 ch s (fun x hx => hc x (by simp [nodesL, hx])) hs
        refine ⟨c :: cs', by simp [g1], ⟨ht.1.congr ?_, g2⟩, by rw [stepsL_cons, g3]; simp⟩
        intro x hx
        refine hc x (by simp [nodesL, hx]) ?_
        rintro rfl; exact hmc hx
end

/-! ### Reading -/

theorem countCloses_run {h : Heap α} : ∀ {cl : List (DftEvent NodeId)} {v : NodeId}
    {l : List (DftEvent NodeId)} {f c : Nat},
    Yields (Dft.next h) (Dft.rest n (cl ++ .opn v :: l)) (cl ++ .opn v :: l) →
    cl.map DftEvent.toStep = List.replicate cl.length none → cl.length < f →
    c + cl.length ≤ usizeMax →
    h.countCloses f c (Dft.rest n (cl ++ .opn v :: l)) = .ok (c + cl.length, Dft.rest n (.opn v :: l))
  | _, _, _, 0, _, _, _, hf, _ => by omega
  | [], v, l, f + 1, c, _, _, _, _ => by simp [Heap.countCloses, Dft.rest, Dft.peek]
  | .opn y :: cl, v, l, f + 1, c, _, hc, _, _ => by
    simp [DftEvent.toStep, List.replicate_succ] at hc
  | .cls y :: cl, v, l, f + 1, c, hy, hc, hf, hu => by
    simp only [List.length_cons] at hf hu
    rw [List.cons_append] at hy
    obtain ⟨e, hy'⟩ := Dft.yields_tail hy
    have hc' : cl.map DftEvent.toStep = List.replicate cl.length none := by
      simpa [DftEvent.toStep, List.replicate_succ] using hc
    have ih := countCloses_run (f := f) (c := c + 1) hy' hc' (by omega) (by omega)
    have hp : Dft.peek (Dft.rest n (.cls y :: (cl ++ .opn v :: l))) = some (.cls y) := rfl
    have : c ≠ usizeMax := by omega
    simp only [List.cons_append, Heap.countCloses, hp, this, if_false, e, ih, List.length_cons]
    congr 2
    omega

/-- A list of events is a number of closings, and after these either nothing or an opening. -/
theorem closes_split : ∀ l : List (DftEvent β), (∃ v, DftEvent.opn v ∈ l) →
    ∃ cl v l', l = cl ++ .opn v :: l' ∧ cl.map DftEvent.toStep = List.replicate cl.length none
  | [], h => by simp at h
  | .opn v :: l, _ => ⟨[], v, l, rfl, rfl⟩
  | .cls y :: l, h => by
    obtain ⟨cl, v, l', h1, h2⟩ := closes_split l (by
      obtain ⟨v, hv⟩ := h; exact ⟨v, by simpa using hv⟩)
    exact ⟨.cls y :: cl, v, l', by simp [h1], by simp [h2, DftEvent.toStep, List.replicate_succ]⟩

theorem Dft.rest_append {a b : List (DftEvent NodeId)} (h : a ≠ []) :
    Dft.rest n (a ++ b) = Dft.rest n a := by
  cases a with
  | nil => exact absurd rfl h
  | cons e a => rfl

/-! ### The chase -/

/-- The builder copies into the node `r`, which is inside the subtree of `n`.  `A` are the steps from `n` to
`r`, `R` the events that have been read, `W` those between the traverser and the builder. -/
structure Chase (w0 : World α) (ch0 : NodeId → List NodeId) (n r : NodeId) (T : TreeId)
    (A B : List (Option NodeId)) (w : World α) (x : NodeId) (R W : List (DftEvent NodeId)) :
    Prop where
  opened : ∃ ch E ks fs, Opened w0 ch0 w ch r T [r] E x ks fs ∧
    R ++ W = evs [] (A ++ enc ((x, ks) :: fs))
  started : R ≠ []
  len : W.length = A.length
  bal : (W.map DftEvent.toStep).countP Option.isSome = A.countP Option.isSome

/-- What does not change during the chase. -/
structure Course (w0 : World α) (ch0 : NodeId → List NodeId) (n r : NodeId) (A B : List (Option NodeId)) :
    Prop where
  tree : ∀ ch s, (∀ x, w0.heap.alive x = true → x ≠ r → ch x = ch0 x) → SubtreeAt ch r s →
    ∃ t, SubtreeAt ch n t ∧ t.steps = A ++ s.steps ++ B
  end_ : B ≠ []
  start : A ≠ []
  long : 2 ≤ A.length
  size : A.length ≤ usizeMax
  old : ∀ v, some v ∈ A → w0.heap.alive v = true
  alive : w0.heap.alive n = true
  root : w0.heap.alive r = true ∧ w0.heap.mutB r = false

theorem Course.events {A B : List (Option NodeId)} {E : List (Option α)} {ks : List (RTree NodeId)}
    {fs : List (Frame NodeId)} (K : Course w0 ch0 n r A B)
    (O : Opened w0 ch0 w ch r T [r] E x ks fs) :
    ∃ t z, SubtreeAt ch n t ∧
      t.steps = (A ++ enc ((x, ks) :: fs)) ++ (List.replicate (fs.length + 1) none ++ B) ∧
      (evs [] (A ++ enc ((x, ks) :: fs))).map DftEvent.toStep = A ++ enc ((x, ks) :: fs) ∧
      t.events = evs [] (A ++ enc ((x, ks) :: fs)) ++ z := by
  obtain ⟨t, ht, hts⟩ := K.tree ch _ O.run.keep O.subtree
  rw [← enc_frames] at hts
  have hts' : t.steps = (A ++ enc ((x, ks) :: fs)) ++ (List.replicate (fs.length + 1) none ++ B) := by
    rw [hts]; simp
  obtain ⟨hev, z, hz⟩ := evs_of_tree hts'
  exact ⟨t, z, ht, hts', hev, hz⟩

/-- The builder has made the steps `X`, the traverser has read the events `P`. -/
theorem Chase.advance {A B : List (Option NodeId)} {R P Q : List (DftEvent NodeId)}
    {w' : World α} {x' : NodeId} {E E' : List (Option α)} {ks ks' : List (RTree NodeId)}
    {fs fs' : List (Frame NodeId)} {X : List (Option NodeId)}
    (K : Course w0 ch0 n r A B) (C : Chase w0 ch0 n r T A B w x R (P ++ Q))
    (O : Opened w0 ch0 w ch r T [r] E x ks fs)
    (hRW : R ++ (P ++ Q) = evs [] (A ++ enc ((x, ks) :: fs)))
    (O' : Opened w0 ch0 w' ch' r T [r] E' x' ks' fs')
    (he : enc ((x', ks') :: fs') = enc ((x, ks) :: fs) ++ X) (hl : P.length = X.length)
    (hc : (P.map DftEvent.toStep).countP Option.isSome = X.countP Option.isSome) :
    ∃ Z, Chase w0 ch0 n r T A B w' x' (R ++ P) (Q ++ Z) := by
  obtain ⟨-, -, -, -, h1, -⟩ := K.events O
  obtain ⟨-, -, -, -, h2, -⟩ := K.events O'
  rw [he, ← List.append_assoc] at h2
  obtain ⟨Z, hZ⟩ := evs_prefix (A ++ enc ((x, ks) :: fs)) [] X
  rw [hZ, List.map_append, h1] at h2
  have hZX : Z.map DftEvent.toStep = X := List.append_cancel_left h2
  refine ⟨Z, ⟨ch', E', ks', fs', O', ?_⟩, by simp [C.started], ?_, ?_⟩
  · rw [he, ← List.append_assoc A, hZ, ← hRW]; simp
  · have := C.len
    have h3 := congrArg List.length hZX
    simp only [List.length_map] at h3
    simp only [List.length_append] at this ⊢
    omega
  · have := C.bal
    rw [List.map_append, List.countP_append] at this ⊢
    rw [hZX]; omega

/-- One event: the traverser stays behind the builder. -/
theorem Chase.step {A B : List (Option NodeId)} {R W : List (DftEvent NodeId)}
    (K : Course w0 ch0 n r A B) (hK : ∀ v, some v ∈ A → w0.heap.mutB v = false)
    (C : Chase w0 ch0 n r T A B w x R W) :
    ∃ ev w' x' R' W', w.heap.serNext (Dft.rest n W) = .ok (some (.ok ev), Dft.rest n W') ∧
      Builder.push w ⟨some r, some x⟩ ev = .ok (w', ⟨some r, some x'⟩, .ok ()) ∧
      Chase w0 ch0 n r T A B w' x' R' W' := by
  obtain ⟨ch, E, ks, fs, O, hRW⟩ := C.opened
  have I := O.run.inv
  -- the tree below `n`
  obtain ⟨t, z, ht, hts', hev, hz⟩ := K.events O
  rw [← hRW] at hev hz
  have hna : w.heap.alive n = true := O.run.grow.alive n K.alive
  have hy : Yields (Dft.next w.heap) (Dft.rest n (W ++ z)) (W ++ z) := by
    have := I.wf.toShape.dft_yields hna ht
    rw [Dft.start_rest ht.1, hz, List.append_assoc] at this
    exact Dft.yields_drop R this
  have hsz : (W ++ z).length ≤ 2 * w.heap.nNode := by
    have h1 := ht.size_le I.wf.toFShape hna
    have h2 := events_length t
    rw [hz] at h2
    simp only [List.length_append] at h2 ⊢
    omega
  -- counting
  have hencb := enc_balance ((x, ks) :: fs)
  have hcnt := congrArg (List.countP Option.isSome) hev
  have hcnt' := congrArg (List.countP Option.isNone) hev
  rw [List.map_append, List.countP_append, List.countP_append] at hcnt hcnt'
  have hWn : (W.map DftEvent.toStep).countP Option.isNone = A.countP Option.isNone := by
    have h1 := count_stepsL_some (W.map DftEvent.toStep)
    have h2 := count_stepsL_some A
    have h3 := C.bal
    have h4 := C.len
    simp only [List.length_map] at h1
    omega
  have hb := C.bal
  simp only [List.length_cons] at hencb
  have hdep : (R.map DftEvent.toStep).countP Option.isSome =
      (R.map DftEvent.toStep).countP Option.isNone + fs.length + 1 := by omega
  have hW2 : 2 ≤ W.length := by rw [C.len]; exact K.long
  have hopen : ∃ v, DftEvent.opn v ∈ W := by
    have hA := steps_within (t := t) (a := A) (b := enc ((x, ks) :: fs) ++ (List.replicate (fs.length + 1) none ++ B))
      (by rw [hts', List.append_assoc]) K.start (by simp [enc])
    have hpos : 0 < (W.map DftEvent.toStep).countP Option.isSome := by omega
    obtain ⟨o, ho, hos⟩ := List.countP_pos_iff.1 hpos
    obtain ⟨e, he, rfl⟩ := List.mem_map.1 ho
    cases e with
    | opn v => exact ⟨v, he⟩
    | cls v => simp [DftEvent.toStep] at hos
  obtain ⟨cl, v, W', rfl, hcl⟩ := closes_split W hopen
  cases cl with
  | nil =>
    simp only [List.nil_append] at *
    have hW' : W' ≠ [] := by rintro rfl; simp at hW2
    have hv : some v ∈ A ++ enc ((x, ks) :: fs) := by
      rw [← hev]
      exact List.mem_map.2 ⟨.opn v, by simp, rfl⟩
    have hvab : w.heap.alive v = true ∧ w.heap.mutB v = false := by
      rcases List.mem_append.1 hv with h | h
      · have h1 := K.old v h
        exact ⟨O.run.grow.alive v h1, by rw [O.run.grow.mutB v h1]; exact hK v h⟩
      · have hv' := mem_enc.1 h
        refine ⟨O.alive v hv', ?_⟩
        rcases O.new v hv' with h1 | h1
        · obtain rfl : v = r := by simpa using h1
          rw [O.run.grow.mutB v K.root.1]; exact K.root.2
        · exact h1.2
    obtain ⟨d, hd⟩ := Option.isSome_iff_exists.1 (show (w.heap.data v).isSome from hvab.1)
    obtain ⟨e1, -⟩ := Dft.yields_tail (e := .opn v) (l := W' ++ z) hy
    obtain ⟨w', ch', e2, O', -⟩ := O.opn d
    obtain ⟨Z, C'⟩ := C.advance (P := [.opn v]) (Q := W') (X := [some w.heap.nNode]) K O hRW O'
      (by simp [enc, stepsL_nil]) rfl rfl
    refine ⟨.opn d, w', _, _, _, ?_, e2, C'⟩
    rw [Dft.rest_append hW', ← Dft.rest_append (b := z) (a := .opn v :: W') (by simp),
      ← Dft.rest_append (b := z) hW']
    simp only [List.cons_append]
    simp [Heap.serNext, e1, Heap.borrowData, hvab.2, hd, Except.map]
  | cons e cl =>
    cases e with
    | opn y => simp [DftEvent.toStep, List.replicate_succ] at hcl
    | cls y =>
      have hcl' : cl.map DftEvent.toStep = List.replicate cl.length none := by
        simpa [DftEvent.toStep, List.replicate_succ] using hcl
      -- the builder can close as many nodes
      have hk : cl.length + 1 ≤ fs.length := by
        have hp := steps_within (t := t) (a := (R ++ .cls y :: cl).map DftEvent.toStep)
          (b := (.opn v :: W').map DftEvent.toStep ++ (List.replicate (fs.length + 1) none ++ B))
          (by rw [hts', ← hev]; simp) (by simp) (by simp)
        rw [List.map_append, List.countP_append, List.countP_append, hcl] at hp
        simp only [List.length_cons, List.countP_replicate, Option.isNone_none, Option.isSome_none,
          if_true, Bool.false_eq_true, if_false] at hp
        omega
      rcases O.close cl.length with ⟨-, w', x', ks', fs', e2, -, O', hl'⟩ | ⟨h, -⟩ | ⟨h, -⟩
      · have henc : enc ((x', ks') :: fs') =
            enc ((x, ks) :: fs) ++ List.replicate (cl.length + 1) none := by
          have h1 := O.subtree
          have h2 := O'.subtree
          have h3 := congrArg RTree.steps (h1.unique h2)
          rw [← enc_frames, ← enc_frames, hl'] at h3
          have h4 : fs.length + 1 = (cl.length + 1) + (fs.length - (cl.length + 1) + 1) := by omega
          rw [h4, ← List.replicate_append_replicate, ← List.append_assoc] at h3
          exact (List.append_cancel_right h3).symm
        obtain ⟨Z, C'⟩ := C.advance (P := .cls y :: cl) (Q := .opn v :: W')
          (X := List.replicate (cl.length + 1) none) K O hRW O' henc (by simp)
          (by rw [hcl]; simp)
        refine ⟨.close (cl.length + 1), w', _, _, _, ?_, e2, C'⟩
        have hle := C.len
        have hks := K.size
        simp only [List.length_append, List.length_cons] at hle hsz
        have q1 : Dft.rest n (.cls y :: cl ++ .opn v :: W') =
            Dft.rest n (.cls y :: (cl ++ .opn v :: (W' ++ z))) := rfl
        have q2 : Dft.rest n (.opn v :: W' ++ Z) = Dft.rest n (.opn v :: (W' ++ z)) := rfl
        rw [q1, q2]
        simp only [List.cons_append, List.append_assoc] at hy
        obtain ⟨e1, hy'⟩ := Dft.yields_tail hy
        have := countCloses_run (f := 2 * w.heap.nNode + 2) (c := 1) hy' hcl' (by omega) (by omega)
        simp only [Heap.serNext, e1, this]
        rw [Nat.add_comm 1]
      · omega
      · omega

/-- The loop of the copying never ends. -/
theorem Chase.forever {A B : List (Option NodeId)} (K : Course w0 ch0 n r A B)
    (hK : ∀ v, some v ∈ A → w0.heap.mutB v = false) :
    ∀ (f : Nat) {w : World α} {x : NodeId} {R W : List (DftEvent NodeId)},
      Chase w0 ch0 n r T A B w x R W →
      Builder.fold f w (Dft.rest n W) ⟨some r, some x⟩ = .error .diverge
  | 0, _, _, _, _, _ => rfl
  | f + 1, _, _, _, _, C => by
    obtain ⟨ev, w', x', R', W', e1, e2, C'⟩ := C.step K hK
    rw [Builder.fold_step e1 e2]
    exact Chase.forever K hK f C'

theorem Matches.split {β γ : Type} {f : γ → Option β} {X X' : List (Option γ)} {Y : List (Option β)}
    (h : Matches f (X ++ X') Y) : ∃ Y1 Y2, Y = Y1 ++ Y2 ∧ Matches f X Y1 ∧ Matches f X' Y2 := by
  rw [Matches, List.map_append] at h
  obtain ⟨Y1, Y2, h1, h2, h3⟩ := List.map_eq_append_iff.1 h.symm
  exact ⟨Y1, Y2, h1, h2.symm, h3.symm⟩

theorem Matches.inj {β γ : Type} {f : γ → Option β} : ∀ {X : List (Option γ)} {Y Y' : List (Option β)},
    Matches f X Y → Matches f X Y' → Y = Y' := by
  intro X Y Y' h1 h2
  rw [Matches] at h1 h2
  rw [h1] at h2
  clear h1
  induction Y generalizing Y' with
  | nil => cases Y' <;> simp_all
  | cons a l ih =>
    cases Y' with
    | nil => simp at h2
    | cons b m =>
      simp only [List.map_cons, List.cons.injEq] at h2
      rw [ih h2.2]
      have := h2.1
      cases a <;> cases b <;> simp_all

/-! ### Reading data that is borrowed -/

/-- The loop of the cloning methods reads the events `L`, among which there is a node with mutably
borrowed data. -/
theorem BState.foldStop {L : List (DftEvent NodeId)} {N : List NodeId} {u : RTree α}
    {Z : List (Option α)}
    (hyp : ∀ {w : World α} {ch : NodeId → List NodeId} {E : List (Option α)} {b : Builder} {k : Nat},
      BState w0 ch0 w ch r T N E b k → ∃ z, Yields (Dft.next w.heap) (Dft.rest n (L ++ z)) (L ++ z) ∧
        (L ++ z).length ≤ 2 * w.heap.nNode)
    (hlen : L.length ≤ usizeMax)
    (hal : ∀ v, DftEvent.opn v ∈ L → w0.heap.alive v = true) :
    ∀ (f : Nat) {l pre : List (DftEvent NodeId)} {Y : List (Option α)} {w : World α}
      {ch : NodeId → List NodeId} {b : Builder} {E : List (Option α)} {k : Nat},
      BState w0 ch0 w ch r T N E b k → L = pre ++ l →
      Matches w0.heap.data (l.map DftEvent.toStep) Y → E ++ Y ++ Z = u.steps → l.length < f →
      (∃ v, DftEvent.opn v ∈ l ∧ w0.heap.mutB v = true) →
      ∃ w' ch' b' E' j, BState w0 ch0 w' ch' r T N E' b' j ∧
        Builder.fold f w (Dft.rest n l) b = .ok (w', b', .error .borrowData)
  | 0, _, _, _, _, _, _, _, _, _, _, _, _, hf, _ => by omega
  | f + 1, [], pre, Y, w, ch, b, E, k, S, he, hY, hu, hf, hv => by simp at hv
  | f + 1, .opn v :: l, pre, Y, w, ch, b, E, k, S, he, hY, hu, hf, hv => by
    have R := S.run
    obtain ⟨z, hy, hn⟩ := hyp S
    rw [he, List.append_assoc] at hy
    have hy := Dft.yields_drop pre hy
    rw [List.cons_append] at hy
    obtain ⟨e0, -⟩ := Dft.yields_tail hy
    have hva := hal v (by rw [he]; simp)
    obtain ⟨d, hd⟩ := Option.isSome_iff_exists.1 (show (w0.heap.data v).isSome from hva)
    have hrest : Dft.rest n (.opn v :: l) = Dft.rest n (.opn v :: (l ++ z)) := rfl
    cases hb : w0.heap.mutB v with
    | true =>
      refine ⟨w, ch, b, E, k, S, ?_⟩
      have hbd : w.heap.borrowData v = .error .mk := by
        simp [Heap.borrowData, R.grow.mutB v hva, hb]
      rw [hrest]
      simp [Builder.fold, Heap.serNext, e0, hbd, Except.map]
    | false =>
      have hv' : ∃ v, DftEvent.opn v ∈ l ∧ w0.heap.mutB v = true := by
        obtain ⟨y, h1, h2⟩ := hv
        simp only [List.mem_cons, DftEvent.opn.injEq] at h1
        rcases h1 with rfl | h1
        · rw [hb] at h2; cases h2
        · exact ⟨y, h1, h2⟩
      have hln : l ≠ [] := by rintro rfl; simp at hv'
      have hbd : w.heap.borrowData v = .ok d := by
        simp [Heap.borrowData, R.grow.mutB v hva, R.grow.data v hva, hd, hb]
      obtain ⟨Y1, Y2, rfl, h1, h2⟩ := Matches.split (X := [some v]) (X' := l.map DftEvent.toStep) hY
      obtain rfl : Y1 = [some d] := h1.inj (.some hd)
      have hgood : ∃ j t, Describes (E ++ Event.expand [Event.opn d]) j t := by
        rcases steps_prefix u (E ++ [some d]) (Y2 ++ Z) (by rw [← hu]; simp) with h | h
        · simp at h
        · simpa [Event.expand] using h
      obtain ⟨w1, ch1, b1, j, e2, S1, -, -⟩ := S.push_ok (.opn d) hgood
      have hx : Event.expand [Event.opn d] = [some d] := by simp [Event.expand]
      rw [hx] at S1
      obtain ⟨w2, ch2, b2, E2, j2, S2, h4⟩ := BState.foldStop (Z := Z) hyp hlen hal f (l := l)
        (pre := pre ++ [.opn v]) S1 (by rw [he]; simp) h2 (by rw [← hu]; simp) (by simp at hf; omega) hv'
      refine ⟨w2, ch2, b2, E2, j2, S2, ?_⟩
      rw [Builder.fold_step (ev := .opn d) (s' := Dft.rest n l) ?_ e2]
      · exact h4
      · rw [hrest, ← Dft.rest_append (b := z) hln]
        simp [Heap.serNext, e0, hbd, Except.map]
  | f + 1, .cls y :: l, pre, Y, w, ch, b, E, k, S, he, hY, hu, hf, hv => by
    have R := S.run
    obtain ⟨z, hy, hn⟩ := hyp S
    have hl2 : (DftEvent.cls y :: l).length ≤ L.length := by rw [he]; simp
    rw [he, List.append_assoc] at hy
    have hy := Dft.yields_drop pre hy
    rw [List.cons_append] at hy
    have hv' : ∃ v, DftEvent.opn v ∈ l ∧ w0.heap.mutB v = true := by simpa using hv
    obtain ⟨cl, v, l', rfl, hcl⟩ := closes_split l ⟨_, hv'.choose_spec.1⟩
    obtain ⟨e1, hy'⟩ := Dft.yields_tail hy
    simp only [List.append_assoc, List.cons_append] at hy'
    simp only [List.length_append, List.length_cons] at hl2 hn hf
    have hcc := countCloses_run (f := 2 * w.heap.nNode + 2) (c := 1) hy' hcl (by omega) (by omega)
    have es : w.heap.serNext (Dft.rest n (.cls y :: (cl ++ .opn v :: l'))) =
        .ok (some (.ok (.close (cl.length + 1))), Dft.rest n (.opn v :: l')) := by
      have q1 : Dft.rest n (.cls y :: (cl ++ .opn v :: l')) =
        Dft.rest n (.cls y :: (cl ++ .opn v :: l' ++ z)) := rfl
      have q2 : Dft.rest n (.opn v :: l') = Dft.rest n (.opn v :: (l' ++ z)) := rfl
      rw [q1, q2]
      simp only [List.append_assoc, List.cons_append] at e1 ⊢
      simp only [Heap.serNext, e1, hcc]
      rw [Nat.add_comm 1]
    have hx : Event.expand [Event.close (cl.length + 1)] = List.replicate (cl.length + 1) (none : Option α) := by
      simp [Event.expand]
    have hY' : Matches w0.heap.data
        (List.replicate (cl.length + 1) none ++ (.opn v :: l').map DftEvent.toStep) Y := by
      rw [List.replicate_succ, ← hcl]
      simpa [DftEvent.toStep] using hY
    obtain ⟨Y1, Y2, rfl, h1, h2⟩ := Matches.split hY'
    obtain rfl : Y1 = List.replicate (cl.length + 1) none := h1.inj (.none _)
    have hgood : ∃ j t, Describes (E ++ Event.expand [Event.close (cl.length + 1)]) j t := by
      rw [hx]
      rcases steps_prefix u (E ++ List.replicate (cl.length + 1) none) (Y2 ++ Z)
        (by rw [← hu]; simp) with h | h
      · simp at h
      · exact h
    obtain ⟨w1, ch1, b1, j, e2, S1, -, -⟩ := S.push_ok (.close (cl.length + 1)) hgood
    rw [hx] at S1
    obtain ⟨w2, ch2, b2, E2, j2, S2, h4⟩ := BState.foldStop (Z := Z) hyp hlen hal f (l := .opn v :: l')
      (pre := pre ++ (.cls y :: cl)) S1 (by rw [he]; simp) h2 (by rw [← hu]; simp)
      (by simp only [List.length_cons]; omega) (by
        obtain ⟨a, g1, g2⟩ := hv'
        refine ⟨a, ?_, g2⟩
        rcases List.mem_append.1 g1 with g | g
        · exfalso
          have : DftEvent.toStep (.opn a) ∈ cl.map DftEvent.toStep := List.mem_map_of_mem g
          rw [hcl] at this
          simp [DftEvent.toStep] at this
        · exact g)
    refine ⟨w2, ch2, b2, E2, j2, S2, ?_⟩
    rw [Builder.fold_step es e2]
    exact h4

end Dendron
