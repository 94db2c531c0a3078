import Verif.Proofs.Grow
import Verif.Proofs.Frames

/-! The builder's loop. -/

set_option linter.unusedSimpArgs false
set_option linter.unusedVariables false

set_option autoImplicit false

namespace Dendron
open RTree
variable {α : Type} {h h' : Heap α} {w w' w0 : World α} {ch ch' ch0 : NodeId → List NodeId}
  {r x y : NodeId} {T : TreeId} {ks ks' : List (RTree NodeId)} {fs : List (Frame NodeId)}
  {E : List (Option α)} {N : List NodeId}

theorem HierL.append : ∀ {cs ds : List (RTree NodeId)}, HierL ch cs → HierL ch ds → HierL ch (cs ++ ds)
  | [], _, _, h2 => h2
  | _ :: _, _, h1, h2 => ⟨h1.1, HierL.append h1.2 h2⟩

/-- The open nodes have the children the frames say, followed by `lower`. -/
def FramesOK (ch : NodeId → List NodeId) : List NodeId → List (Frame NodeId) → Prop
  | _, [] => True
  | lower, (x, ks) :: fs => ch x = ks.map label ++ lower ∧ HierL ch ks ∧ FramesOK ch [x] fs

/-- The nodes of the tree under construction. -/
def nodesF : List (Frame NodeId) → List NodeId
  | [] => []
  | (x, ks) :: fs => nodesF fs ++ x :: nodesL ks

/-- The outermost open node is `r`. -/
def Bottom (r : NodeId) : List (Frame NodeId) → Prop
  | [] => False
  | [f] => f.1 = r
  | _ :: fs => Bottom r fs

theorem FramesOK.congr : ∀ {fs : List (Frame NodeId)} {l : List NodeId}, FramesOK ch l fs →
    (∀ y ∈ nodesF fs, ch' y = ch y) → FramesOK ch' l fs
  | [], _, _, _ => trivial
  | (x, ks) :: fs, l, h1, h2 => by
    refine ⟨?_, HierL.congr (fun y hy => h2 y (by simp [nodesF, hy])) h1.2.1,
      FramesOK.congr h1.2.2 (fun y hy => h2 y (by simp [nodesF, hy]))⟩
    rw [h2 x (by simp [nodesF])]; exact h1.1

theorem Bottom.mem : ∀ {fs : List (Frame NodeId)}, Bottom r fs → r ∈ nodesF fs
  | [], h1 => h1.elim
  | [(x, ks)], h1 => by simp [nodesF, show x = r from h1]
  | (x, ks) :: g :: fs, h1 => by
    have := Bottom.mem (fs := g :: fs) h1
    simp only [nodesF, List.mem_append] at this ⊢
    exact .inl this

theorem mem_enc {v : NodeId} : ∀ {fs : List (Frame NodeId)}, some v ∈ enc fs ↔ v ∈ nodesF fs
  | [] => by simp [enc, nodesF]
  | (x, ks) :: fs => by
    have ih := mem_enc (v := v) (fs := fs)
    have : some v ∈ stepsL ks ↔ v ∈ nodesL ks := by
      rw [← mem_eventsL_opn, stepsL, List.mem_map]
      constructor
      · rintro ⟨e, he, h2⟩
        cases e with
        | opn x => simp [DftEvent.toStep] at h2; rw [← h2]; exact he
        | cls x => simp [DftEvent.toStep] at h2
      · intro he; exact ⟨_, he, rfl⟩
    simp [enc, nodesF, ih, this]

theorem zipUp_label : ∀ {fs : List (Frame NodeId)} {t : RTree NodeId},
    Bottom r ((t.label, t.children) :: fs) → (zipUp t fs).label = r
  | [], _, h1 => h1
  | (y, ks) :: fs, t, h1 => by
    rw [zipUp]
    refine zipUp_label ?_
    cases fs with
    | nil => exact h1
    | cons g fs => exact h1

theorem zipUp_hier : ∀ {fs : List (Frame NodeId)} {t : RTree NodeId}, Hier ch t →
    FramesOK ch [t.label] fs → Hier ch (zipUp t fs)
  | [], _, h1, _ => h1
  | (y, ks) :: fs, t, h1, h2 => by
    rw [zipUp]
    refine zipUp_hier ⟨?_, HierL.append h2.2.1 ⟨h1, trivial⟩⟩ h2.2.2
    rw [h2.1]; simp

mutual
theorem nodes_steps : ∀ t : RTree NodeId, t.nodes = t.steps.filterMap id
  | .node v cs => by
    have := nodesL_steps cs
    rw [nodes, steps_node, this]; simp
theorem nodesL_steps : ∀ cs : List (RTree NodeId), nodesL cs = (stepsL cs).filterMap id
  | [] => by simp [nodesL, stepsL_nil]
  | c :: cs => by
    have h1 := nodes_steps c
    have h2 := nodesL_steps cs
    rw [nodesL, stepsL_cons, h1, h2]; simp
end

theorem nodesF_enc : ∀ fs : List (Frame NodeId), nodesF fs = (enc fs).filterMap id
  | [] => rfl
  | (x, ks) :: fs => by
    have h1 := nodesF_enc fs
    have h2 := nodesL_steps ks
    rw [nodesF, enc, h1, h2]; simp

theorem zipUp_nodes {t : RTree NodeId} {fs : List (Frame NodeId)} :
    (zipUp t fs).nodes = nodesF ((t.label, t.children) :: fs) := by
  rw [nodes_steps, ← enc_zip, nodesF_enc, enc]
  cases t with
  | node v cs => rw [steps_node]; simp [label, children]

/-- The builder has opened the nodes of the frames `(x, ks) :: fs`; the steps so far are `E`. -/
structure Opened (w0 : World α) (ch0 : NodeId → List NodeId) (w : World α)
    (ch : NodeId → List NodeId) (r : NodeId) (T : TreeId) (N : List NodeId) (E : List (Option α)) (x : NodeId)
    (ks : List (RTree NodeId)) (fs : List (Frame NodeId)) : Prop where
  run : Run w0 ch0 w ch r T [r] [x]
  ok : FramesOK ch [] ((x, ks) :: fs)
  bottom : Bottom r ((x, ks) :: fs)
  nodup : (nodesF ((x, ks) :: fs)).Nodup
  alive : ∀ y ∈ nodesF ((x, ks) :: fs), w.heap.alive y = true
  fresh : ∀ p ∈ (x, ks) :: fs, p.1 = r ∨ w0.heap.alive p.1 = false
  dat : Matches w.heap.data (enc ((x, ks) :: fs)) E
  new : ∀ y ∈ nodesF ((x, ks) :: fs), y ∈ N ∨ (w0.heap.alive y = false ∧ w.heap.mutB y = false)

namespace Opened

/-- The tree so far. -/
theorem subtree (O : Opened w0 ch0 w ch r T N E x ks fs) :
    SubtreeAt ch r (zipUp (.node x ks) fs) :=
  ⟨zipUp_label O.bottom, zipUp_hier ⟨by rw [O.ok.1]; simp, O.ok.2.1⟩ O.ok.2.2⟩

theorem matches_zip (O : Opened w0 ch0 w ch r T N E x ks fs) :
    Matches w.heap.data (zipUp (.node x ks) fs).steps (E ++ List.replicate (fs.length + 1) none) := by
  rw [← enc_frames]
  exact O.dat.append (.none _)

theorem describes (O : Opened w0 ch0 w ch r T N E x ks fs) :
    ∃ u, Describes E (fs.length + 1) u ∧ HasData w.heap (zipUp (.node x ks) fs) u := by
  obtain ⟨u, hu⟩ := exists_data (h := w.heap) (zipUp (.node x ks) fs) (by
    intro y hy; rw [zipUp_nodes] at hy; exact O.alive y hy)
  refine ⟨u, ?_, hu⟩
  have h1 := O.matches_zip
  have h2 := (Matches.tree (f := w.heap.data)).2 hu
  rw [Matches] at h1 h2
  rw [h1] at h2
  have inj : ∀ {a b : List (Option α)}, a.map (Option.map some) = b.map (Option.map some) → a = b := by
    intro a
    induction a with
    | nil => intro b e; cases b <;> simp_all
    | cons a l ih =>
      intro b e
      cases b with
      | nil => simp at e
      | cons b m =>
        simp only [List.map_cons, List.cons.injEq] at e
        rw [ih e.2]
        congr 1
        cases a <;> cases b <;> simp_all
  exact inj h2

/-- Nothing but counters has changed. -/
theorem still {w' : World α} (O : Opened w0 ch0 w ch r T N E x ks fs)
    (S : Still w.heap w'.heap) (R : Run w0 ch0 w' ch r T [r] [x]) :
    Opened w0 ch0 w' ch r T N E x ks fs :=
  ⟨R, O.ok, O.bottom, O.nodup, fun y hy => by rw [S.alive]; exact O.alive y hy, O.fresh,
    by rw [S.data]; exact O.dat, fun y hy => by rw [S.mutB]; exact O.new y hy⟩

/-- `open`. -/
theorem opn (O : Opened w0 ch0 w ch r T N E x ks fs) (d : α) :
    ∃ w' ch', Builder.opn w ⟨some r, some x⟩ d = .ok (w', ⟨some r, some w.heap.nNode⟩, .ok ()) ∧
      Opened w0 ch0 w' ch' r T N (E ++ [some d]) w.heap.nNode [] ((x, ks) :: fs) ∧
      w'.heap.mutB w.heap.nNode = false ∧ w0.heap.alive w.heap.nNode = false ∧
      Grow w.heap w'.heap := by
  obtain ⟨w1, e1, F, R1⟩ := O.run.create (d := d) (c := x) (by simp) (by simp)
    (O.fresh (x, ks) (by simp))
  obtain ⟨w2, e2, S2, R2⟩ := R1.dropHot (c := x) (by simp) (by simp) (.inl (by simp))
  have I := O.run.inv
  have hfresh := I.wf.toFShape.fresh_not_alive
  have hxa : w.heap.alive x = true := O.alive x (by simp [nodesF])
  have hne : ∀ y, w.heap.alive y = true → y ≠ w.heap.nNode := by
    rintro y hy rfl; rw [hfresh] at hy; cases hy
  have hxn := hne x hxa
  have hcs : [w.heap.nNode, x].erase x = [w.heap.nNode] := by
    rw [List.erase_cons_tail (by simpa using fun e => hxn e.symm)]
    simp
  rw [hcs] at R2
  have h0 : w0.heap.alive w.heap.nNode = false := by
    cases hx : w0.heap.alive w.heap.nNode with
    | false => rfl
    | true => rw [O.run.grow.alive _ hx] at hfresh; cases hfresh
  have hnd := O.nodup
  simp only [nodesF, List.nodup_append, List.nodup_cons, List.mem_cons] at hnd
  obtain ⟨nd1, ⟨nd2, nd3⟩, nd4⟩ := hnd
  refine ⟨w2, _, ?_, ⟨R2, ?_, O.bottom, ?_, ?_, ?_, ?_, ?_⟩, ?_, h0, F.grow.trans S2.grow⟩
  · simp only [Builder.opn, bind, Except.bind, e1, e2, pure, Except.pure]
  · refine ⟨?_, trivial, ?_, ?_, ?_⟩
    · rw [upd_ne _ _ (fun e => hxn e.symm)]
      simp [I.wf.dead _ hfresh]
    · simp [O.ok.1]
    · refine HierL.congr ?_ O.ok.2.1
      intro y hy
      rw [upd_ne]; rintro rfl; exact nd2 hy
    · refine O.ok.2.2.congr ?_
      intro y hy
      rw [upd_ne]; rintro rfl; exact nd4 y hy y (.inl rfl) rfl
  · rw [nodesF, nodesL]
    rw [List.nodup_append]
    refine ⟨O.nodup, by simp, ?_⟩
    intro a ha b hb
    simp only [List.mem_singleton] at hb
    subst hb
    exact hne a (O.alive a ha)
  · intro y hy
    rw [S2.alive]
    rw [nodesF, nodesL, List.mem_append] at hy
    rcases hy with hy | hy
    · exact F.grow.alive y (O.alive y hy)
    · simp only [List.mem_singleton] at hy; subst hy; exact F.alive_new
  · intro p hp
    simp only [List.mem_cons] at hp
    rcases hp with rfl | hp
    · exact .inr h0
    · exact O.fresh p (by simpa using hp)
  · rw [enc, stepsL_nil, S2.data]
    refine Matches.append (O.dat.congr ?_) (.some F.data)
    intro y hy
    exact F.grow.data y (O.alive y (mem_enc.1 hy))
  · intro y hy
    rw [S2.mutB]
    rw [nodesF, nodesL, List.mem_append] at hy
    rcases hy with hy | hy
    · rcases O.new y hy with h1 | ⟨h1, h2⟩
      · exact .inl h1
      · exact .inr ⟨h1, by rw [F.grow.mutB y (O.alive y hy)]; exact h2⟩
    · simp only [List.mem_singleton] at hy; subst hy; exact .inr ⟨h0, F.mutB⟩
  · rw [S2.mutB]; exact F.mutB

/-- One iteration of `close`. -/
theorem pop {ks' : List (RTree NodeId)} (O : Opened w0 ch0 w ch r T N E x ks ((y, ks') :: fs)) :
    x ≠ r ∧ ∃ w1 w2, w.exec (.nav .hot .parent x) = .ok (w1, .node (some y)) ∧
      w1.exec (.drop .hot x) = .ok (w2, .unit) ∧ Still w.heap w2.heap ∧
      Opened w0 ch0 w2 ch r T N (E ++ [none]) y (ks' ++ [.node x ks]) fs := by
  have hxr : x ≠ r := by
    rintro rfl
    have h1 : x ∈ nodesF ((y, ks') :: fs) := Bottom.mem O.bottom
    have h2 := O.nodup
    rw [nodesF, List.nodup_append] at h2
    exact h2.2.2 x h1 x (by simp) rfl
  refine ⟨hxr, ?_⟩
  have hxy : x ∈ ch y := by rw [O.ok.2.2.1]; simp
  obtain ⟨w1, e1, S1, R1⟩ := O.run.parent (c := x) (by simp) (by simp) hxy
  obtain ⟨w2, e2, S2, R2⟩ := R1.dropHot (c := x) (by simp) (by simp) (.inl (by simp))
  have hyx : y ≠ x := by
    rintro rfl
    have h2 := O.nodup
    rw [nodesF, List.nodup_append] at h2
    exact h2.2.2 y (by simp [nodesF]) y (by simp) rfl
  have hcs : [y, x].erase x = [y] := by
    rw [List.erase_cons_tail (by simpa using hyx)]
    simp
  rw [hcs] at R2
  have S := S1.trans S2
  have hnf : nodesF ((y, ks' ++ [.node x ks]) :: fs) = nodesF ((x, ks) :: (y, ks') :: fs) := by
    simp [nodesF, nodesL_eq, nodes]
  refine ⟨w1, w2, e1, e2, S, R2, ?_, ?_, ?_, ?_, ?_, ?_, ?_⟩
  · refine ⟨?_, HierL.append O.ok.2.2.2.1 ⟨⟨?_, O.ok.2.1⟩, trivial⟩, O.ok.2.2.2.2⟩
    · rw [O.ok.2.2.1]; simp [label]
    · rw [O.ok.1]; simp
  · have := O.bottom
    cases fs with
    | nil => exact this
    | cons g fs => exact this
  · rw [hnf]; exact O.nodup
  · intro z hz; rw [hnf] at hz; rw [S.alive]; exact O.alive z hz
  · intro p hp
    simp only [List.mem_cons] at hp
    rcases hp with rfl | hp
    · exact O.fresh (y, ks') (by simp)
    · exact O.fresh p (by simp [hp])
  · rw [S.data]
    have : enc ((y, ks' ++ [.node x ks]) :: fs) = enc ((x, ks) :: (y, ks') :: fs) ++ [none] := by
      simp [enc, stepsL_append, stepsL_cons, stepsL_nil, steps_node]
    rw [this]
    exact O.dat.append (.none 1)
  · intro z hz; rw [hnf] at hz; rw [S.mutB]; exact O.new z hz

/-- The loop of `close`: as many nodes are closed as asked for, as long as the outermost node stays
open. -/
theorem loop : ∀ (k : Nat) {w : World α} {E : List (Option α)} {x : NodeId}
    {ks : List (RTree NodeId)} {fs : List (Frame NodeId)},
    Opened w0 ch0 w ch r T N E x ks fs →
    ∃ w' x' ks' fs', Builder.closeLoop r k w x = .ok (w', x', decide (k ≤ fs.length)) ∧
      Still w.heap w'.heap ∧
      Opened w0 ch0 w' ch r T N (E ++ List.replicate (min k fs.length) none) x' ks' fs' ∧
      fs'.length = fs.length - k
  | 0, w, E, x, ks, fs, O => by
    refine ⟨w, x, ks, fs, by simp [Builder.closeLoop], Still.refl _, ?_, by simp⟩
    simpa using O
  | k + 1, w, E, x, ks, [], O => by
    have hx : x = r := O.bottom
    refine ⟨w, x, ks, [], by simp [Builder.closeLoop, hx], Still.refl _, ?_, by simp⟩
    simpa using O
  | k + 1, w, E, x, ks, (y, ks') :: fs, O => by
    obtain ⟨hxr, w1, w2, e1, e2, S, O2⟩ := O.pop
    obtain ⟨w', x', ks'', fs', e3, S3, O3, hl⟩ := loop k O2
    refine ⟨w', x', ks'', fs', ?_, S.trans S3, ?_, by simpa using hl⟩
    · simp only [Builder.closeLoop, if_neg hxr, bind, Except.bind, e1, e2, e3]
      simp
    · rw [List.append_assoc] at O3
      have : [none] ++ List.replicate (min k fs.length) none
          = List.replicate (min (k + 1) ((y, ks') :: fs).length) (none : Option α) := by
        rw [List.length_cons, Nat.succ_min_succ, List.replicate_succ]; rfl
      rw [this] at O3
      exact O3

end Opened

/-- The builder has closed its root. -/
structure Complete (w0 : World α) (ch0 : NodeId → List NodeId) (w : World α)
    (ch : NodeId → List NodeId) (r : NodeId) (T : TreeId) (N : List NodeId) (E : List (Option α))
    (s : RTree NodeId) (cur : Option NodeId) : Prop where
  run : Run w0 ch0 w ch r T [r] cur.toList
  sub : SubtreeAt ch r s
  alive : ∀ y ∈ s.nodes, w.heap.alive y = true
  dat : Matches w.heap.data s.steps E
  new : ∀ y ∈ s.nodes, y ∈ N ∨ (w0.heap.alive y = false ∧ w.heap.mutB y = false)
  cur : match cur with
    | none => ∀ p, r ∉ ch p
    | some p => r ∈ ch p

theorem Complete.describes {s : RTree NodeId} {cur : Option NodeId}
    (C : Complete w0 ch0 w ch r T N E s cur) :
    ∃ u, Describes E 0 u ∧ HasData w.heap s u := by
  obtain ⟨u, hu⟩ := exists_data (h := w.heap) s C.alive
  refine ⟨u, ?_, hu⟩
  have h1 := C.dat
  have h2 := (Matches.tree (f := w.heap.data)).2 hu
  rw [Matches] at h1 h2
  rw [h1] at h2
  have inj : ∀ {a b : List (Option α)}, a.map (Option.map some) = b.map (Option.map some) → a = b := by
    intro a
    induction a with
    | nil => intro b e; cases b <;> simp_all
    | cons a l ih =>
      intro b e
      cases b with
      | nil => simp at e
      | cons b m =>
        simp only [List.map_cons, List.cons.injEq] at e
        rw [ih e.2]
        congr 1
        cases a <;> cases b <;> simp_all
  rw [Describes, List.replicate_zero, List.append_nil]
  exact inj h2

/-- `close` of a positive number of nodes while some node is open. -/
theorem Opened.close (O : Opened w0 ch0 w ch r T N E x ks fs) (k : Nat) :
    (k + 1 ≤ fs.length ∧ ∃ w' x' ks' fs',
      Builder.close w ⟨some r, some x⟩ (k + 1) = .ok (w', ⟨some r, some x'⟩, .ok ()) ∧
      Still w.heap w'.heap ∧
      Opened w0 ch0 w' ch r T N (E ++ List.replicate (k + 1) none) x' ks' fs' ∧
      fs'.length = fs.length - (k + 1)) ∨
    (k = fs.length ∧ ∃ w' s cur,
      Builder.close w ⟨some r, some x⟩ (k + 1) = .ok (w', ⟨some r, cur⟩, .ok ()) ∧
      Still w.heap w'.heap ∧
      Complete w0 ch0 w' ch r T N (E ++ List.replicate (k + 1) none) s cur) ∨
    (fs.length < k ∧ ∃ w' ks',
      Builder.close w ⟨some r, some x⟩ (k + 1) = .ok (w', ⟨some r, some r⟩, .error .rootClosed) ∧
      Still w.heap w'.heap ∧
      Opened w0 ch0 w' ch r T N (E ++ List.replicate fs.length none) r ks' []) := by
  obtain ⟨w1, x1, ks1, fs1, e1, S1, O1, hl⟩ := O.loop k
  by_cases hk : k ≤ fs.length
  · cases fs1 with
    | cons g fs1 =>
      obtain ⟨y, ks'⟩ := g
      refine .inl ⟨by simp at hl; omega, ?_⟩
      obtain ⟨hxr, w2, w3, e2, e3, S, O2⟩ := O1.pop
      refine ⟨w3, y, ks' ++ [.node x1 ks1], fs1, ?_, S1.trans S, ?_, by simp at hl; omega⟩
      · simp only [Builder.close, Nat.add_eq_zero_iff, Nat.one_ne_zero, and_false, if_false,
          Nat.add_sub_cancel, bind, Except.bind, e1, hk, decide_true, e2, e3, pure, Except.pure]
      · rw [List.append_assoc, Nat.min_eq_left hk] at O2
        have : List.replicate k none ++ [none] = List.replicate (k + 1) (none : Option α) := by
          rw [List.replicate_succ']
        rw [this] at O2; exact O2
    | nil =>
      have hk' : k = fs.length := by simp at hl; omega
      refine .inr (.inl ⟨hk', ?_⟩)
      have hx : x1 = r := O1.bottom
      have I := O1.run.inv
      have hsub := O1.subtree
      have hE : Matches w1.heap.data (zipUp (.node x1 ks1) []).steps
          (E ++ List.replicate (k + 1) none) := by
        have := O1.matches_zip
        rw [List.append_assoc, Nat.min_eq_left hk] at this
        simpa [List.replicate_succ'] using this
      by_cases hp : ∃ p, r ∈ ch p
      · obtain ⟨p, hp⟩ := hp
        rw [hx] at O1
        obtain ⟨w2, e2, S2, R2⟩ := O1.run.parent (c := r) (by simp) (by simp) hp
        obtain ⟨w3, e3, S3, R3⟩ := R2.dropHot (c := r) (by simp) (by simp) (.inl (by simp))
        have hpr : p ≠ r := by
          rintro rfl
          exact I.wf.coherent.acyclic _ _ hp (.refl _)
        have hcs : [p, r].erase r = [p] := by
          rw [List.erase_cons_tail (by simpa using hpr)]
          simp
        rw [hcs] at R3
        have S := S2.trans S3
        refine ⟨w3, zipUp (.node x1 ks1) [], some p, ?_, S1.trans S, R3, hsub, ?_, ?_, ?_, hp⟩
        · simp only [Builder.close, Nat.add_eq_zero_iff, Nat.one_ne_zero, and_false, if_false,
            Nat.add_sub_cancel, bind, Except.bind, e1, hk, decide_true, hx, e2, e3, pure, Except.pure]
        · intro z hz; rw [zipUp_nodes, hx] at hz; rw [S.alive]; exact O1.alive z hz
        · rw [S.data]; exact hE
        · intro z hz; rw [zipUp_nodes, hx] at hz; rw [S.mutB]; exact O1.new z hz
      · have hp' : ∀ p, r ∉ ch p := fun p h => hp ⟨p, h⟩
        rw [hx] at O1
        have e2 := O1.run.parent_none (c := r) (by simp) hp'
        obtain ⟨w3, e3, S3, R3⟩ := O1.run.dropHot (c := r) (by simp) (by simp) (.inl (by simp))
        have hcs : [r].erase r = [] := by simp
        rw [hcs] at R3
        refine ⟨w3, zipUp (.node x1 ks1) [], none, ?_, S1.trans S3, R3, hsub, ?_, ?_, ?_, hp'⟩
        · simp only [Builder.close, Nat.add_eq_zero_iff, Nat.one_ne_zero, and_false, if_false,
            Nat.add_sub_cancel, bind, Except.bind, e1, hk, decide_true, hx, e2, e3, pure, Except.pure]
        · intro z hz; rw [zipUp_nodes, hx] at hz; rw [S3.alive]; exact O1.alive z hz
        · rw [S3.data]; exact hE
        · intro z hz; rw [zipUp_nodes, hx] at hz; rw [S3.mutB]; exact O1.new z hz
  · have hk' : fs.length < k := by omega
    refine .inr (.inr ⟨hk', ?_⟩)
    obtain rfl : fs1 = [] := List.eq_nil_of_length_eq_zero (by omega)
    have hx : x1 = r := O1.bottom
    subst hx
    refine ⟨w1, ks1, ?_, S1, ?_⟩
    · simp only [Builder.close, Nat.add_eq_zero_iff, Nat.one_ne_zero, and_false, if_false,
        Nat.add_sub_cancel, bind, Except.bind, e1, hk, decide_false, pure, Except.pure]
    · rw [Nat.min_eq_right (by omega)] at O1; exact O1

end Dendron
