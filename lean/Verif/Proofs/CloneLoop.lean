import Verif.Proofs.CloneInsert

/-! Copying a node with a child to the end of its own children never ends. -/

set_option linter.unusedSimpArgs false
set_option linter.unusedVariables false

set_option autoImplicit false

namespace Dendron
open RTree
variable {α : Type} {w w' w0 w1 : World α} {ch ch' ch0 ch1 : NodeId → List NodeId}
  {r c x n p st : NodeId} {T : TreeId} {d : α}

theorem Builder.fold_step {f : Nat} {s s' : Dft.State} {b b' : Builder} {ev : Event α}
    (e1 : w.heap.serNext s = .ok (some (.ok ev), s')) (e2 : Builder.push w b ev = .ok (w', b', .ok ())) :
    Builder.fold (f + 1) w s b = Builder.fold f w' s' b' := by
  simp only [Builder.fold, e1, e2, bind, Except.bind]

/-- One round of the endless copying. -/
theorem Opened.round {E : List (Option α)} {A c : NodeId} {fs : List (Frame NodeId)}
    (hst : w0.heap.alive st = true) (hsr : st ≠ r)
    (O : Opened w0 ch0 w ch r T [r] E A [.node c []] fs) (hA : w.heap.mutB A = false)
    (hc : w.heap.mutB c = false) :
    ∃ (w1 w2 w3 : World α) (b1 b2 : Builder) (s1 s2 : Dft.State) (d1 d2 : α) (ch3 : NodeId → List NodeId)
      (E3 : List (Option α)) (B c' : NodeId) (fs3 : List (Frame NodeId)),
      w.heap.serNext (some (.opn A, st)) = .ok (some (.ok (.opn d1)), s1) ∧
      Builder.push w ⟨some r, some A⟩ (.opn d1) = .ok (w1, b1, .ok ()) ∧
      w1.heap.serNext s1 = .ok (some (.ok (.opn d2)), s2) ∧
      Builder.push w1 b1 (.opn d2) = .ok (w2, b2, .ok ()) ∧
      w2.heap.serNext s2 = .ok (some (.ok (.close 1)), some (.opn B, st)) ∧
      Builder.push w2 b2 (.close 1) = .ok (w3, ⟨some r, some B⟩, .ok ()) ∧
      Opened w0 ch0 w3 ch3 r T [r] E3 B [.node c' []] fs3 ∧ w3.heap.mutB B = false ∧
      w3.heap.mutB c' = false := by
  have hAa : w.heap.alive A = true := O.alive A (by simp [nodesF])
  have hca : w.heap.alive c = true := O.alive c (by simp [nodesF, nodesL, nodes])
  obtain ⟨d1, hd1⟩ := Option.isSome_iff_exists.1 (show (w.heap.data A).isSome from hAa)
  obtain ⟨d2, hd2⟩ := Option.isSome_iff_exists.1 (show (w.heap.data c).isSome from hca)
  have F := O.run.inv.wf.toFShape
  have hchA : ch A = [c] := by rw [O.ok.1]; simp [label]
  have e1 : w.heap.serNext (some (.opn A, st)) = .ok (some (.ok (.opn d1)), some (.opn c, st)) := by
    simp [Heap.serNext, Dft.next, Heap.borrowData, hA, hd1, evNext_inner F hAa hchA, Except.map]
  obtain ⟨w1, ch1, p1, O1, m1, a1, G1⟩ := O.opn d1
  obtain ⟨B, hB⟩ : ∃ B, B = w.heap.nNode := ⟨_, rfl⟩
  rw [← hB] at p1 O1 m1 a1
  have hc1 : w1.heap.alive c = true := G1.alive c hca
  have hchc : ch1 c = [] := by
    have := O1.ok.2.2.2.1
    simp only [HierL, Hier] at this
    rw [← this.1.1]; simp
  have e2 : w1.heap.serNext (some (.opn c, st)) = .ok (some (.ok (.opn d2)), some (.cls c, st)) := by
    simp [Heap.serNext, Dft.next, Heap.borrowData, G1.mutB c hca, hc, G1.data c hca, hd2,
      evNext_leaf O1.run.inv.wf.toFShape hc1 hchc, Except.map]
  obtain ⟨w2, ch2, p2, O2, m2, a2, G2⟩ := O1.opn d2
  obtain ⟨c', hc'⟩ : ∃ c', c' = w1.heap.nNode := ⟨_, rfl⟩
  rw [← hc'] at p2 O2 m2 a2
  have hchA2 : ch2 A = [] ++ c :: B :: [] := by
    have := O2.ok.2.2.2.2.1
    rw [this]; simp [label]
  have hcs : c ≠ st := by
    rintro rfl
    rcases O.new c (by simp [nodesF, nodesL, nodes]) with h | ⟨h, -⟩
    · exact hsr (by simpa using h)
    · rw [hst] at h; cases h
  have e3 : w2.heap.serNext (some (.cls c, st)) = .ok (some (.ok (.close 1)), some (.opn B, st)) := by
    have : w2.heap.evNext (.cls c) = some (.opn B) := evNext_sib O2.run.inv.wf.toFShape hchA2
    simp [Heap.serNext, Dft.next, hcs, this, Heap.countCloses, Dft.peek]
  obtain ⟨hne, w3, w4, q1, q2, S4, O4⟩ := O2.pop
  have p3 : Builder.push w2 ⟨some r, some c'⟩ (.close 1) = .ok (w4, ⟨some r, some B⟩, .ok ()) := by
    simp [Builder.push, Builder.close, Builder.closeLoop, bind, Except.bind, q1, q2, pure, Except.pure]
  refine ⟨w1, w2, w4, _, _, _, _, d1, d2, ch2, _, B, c', _, e1, p1, e2, p2, e3, p3, O4, ?_, ?_⟩
  · have hBa : w1.heap.alive B = true := O1.alive B (by simp [nodesF])
    rw [S4.mutB, G2.mutB B hBa]; exact m1
  · rw [S4.mutB]; exact m2

/-- The loop never ends. -/
theorem Opened.forever (hst : w0.heap.alive st = true) (hsr : st ≠ r) :
    ∀ (f : Nat) {w : World α} {ch : NodeId → List NodeId} {E : List (Option α)} {A c : NodeId}
      {fs : List (Frame NodeId)}, Opened w0 ch0 w ch r T [r] E A [.node c []] fs →
      w.heap.mutB A = false → w.heap.mutB c = false →
      Builder.fold f w (some (.opn A, st)) ⟨some r, some A⟩ = .error .diverge
  | 0, _, _, _, _, _, _, _, _, _ => rfl
  | 1, _, _, _, _, _, _, O, hA, hc => by
    obtain ⟨w1, w2, w3, b1, b2, s1, s2, d1, d2, ch3, E3, B, c', fs3, e1, p1, -⟩ := O.round hst hsr hA hc
    rw [Builder.fold_step e1 p1]; rfl
  | 2, _, _, _, _, _, _, O, hA, hc => by
    obtain ⟨w1, w2, w3, b1, b2, s1, s2, d1, d2, ch3, E3, B, c', fs3, e1, p1, e2, p2, -⟩ :=
      O.round hst hsr hA hc
    rw [Builder.fold_step e1 p1, Builder.fold_step e2 p2]; rfl
  | f + 3, _, _, _, _, _, _, O, hA, hc => by
    obtain ⟨w1, w2, w3, b1, b2, s1, s2, d1, d2, ch3, E3, B, c', fs3, e1, p1, e2, p2, e3, p3, O3, h1, h2⟩ :=
      O.round hst hsr hA hc
    rw [Builder.fold_step e1 p1, Builder.fold_step e2 p2, Builder.fold_step e3 p3]
    exact Opened.forever hst hsr f O3 h1 h2

theorem BState.open_of_pos {N : List NodeId} {E : List (Option α)} {b : Builder} {k : Nat}
    (S : BState w0 ch0 w ch r T N E b k) (hk : 0 < k) :
    ∃ x ks fs, b = ⟨some r, some x⟩ ∧ k = fs.length + 1 ∧ Opened w0 ch0 w ch r T N E x ks fs := by
  cases S with
  | opened O => exact ⟨_, _, _, rfl, rfl, O⟩
  | complete C => omega

/-- `try_clone_insert_subtree` of a node with one childless child to the end of its own children. -/
theorem Builder.cloneInsert_forever (hr : Reach w) (hroom : Room w.heap) (I : Inv w ch)
    (hk : 0 < w.held .hot n) (hT : w.heap.memTree n = some T) (hs0 : w.heap.grants T + 5 ≤ 2 ^ 62)
    (hn : ch n = [c]) (hc : ch c = []) (b1 : w.heap.mutB n = false) (b2 : w.heap.mutB c = false) (f : Nat) :
    Builder.tryCloneInsert f w n (.lastChildOf n) = .error .diverge := by
  have hfresh := I.wf.toFShape.fresh_not_alive
  have ha := I.held_alive hk
  have hcm : c ∈ ch n := by simp [hn]
  have hca := I.wf.alive_of_mem hcm
  obtain ⟨d1, hd1⟩ := Option.isSome_iff_exists.1 (show (w.heap.data n).isSome from ha)
  obtain ⟨d2, hd2⟩ := Option.isSome_iff_exists.1 (show (w.heap.data c).isSome from hca)
  obtain ⟨w1, e1, I1, F⟩ := I.exec_create (d := d1) (as := .lastChild) hk (.last n) hT
    (by simp only [Lock.isizeMax]; omega)
  have hr1 : Reach w1 := .step (op := .create .hot n d1 .lastChild) hr
    ⟨hk, fun _ _ => trivial, hroom, e1⟩
  have hroom1 : Room w1.heap := F.room I I1 hk hT hroom (by omega)
  have hg1 := F.grants I I1 hk hT
  obtain ⟨m, hm⟩ : ∃ m, m = w.heap.nNode := ⟨_, rfl⟩
  obtain ⟨ch1, hch1⟩ : ∃ ch1, ch1 = upd ch n (ch n ++ [m]) := ⟨_, rfl⟩
  rw [← hm] at I1 e1 hfresh
  rw [← hch1] at I1
  have hmk : 0 < w1.held .hot m := by rw [F.held]; simp [hm]
  have hmT : w1.heap.memTree m = some T := by rw [hm]; exact F.memTree
  have hmn : m ≠ n := by rintro rfl; rw [hfresh] at ha; cases ha
  have hcn : c ≠ n := by
    rintro rfl; rw [hc] at hn; cases hn
  have hchm : ch1 m = [] := by
    rw [hch1, upd_ne _ _ hmn]
    exact I.wf.dead m hfresh
  have hchn : ch1 n = [] ++ c :: m :: [] := by rw [hch1]; simp [hn]
  have hchc : ch1 c = [] := by rw [hch1, upd_ne _ _ hcn, hc]
  have ha1 := F.grow.alive n ha
  have hca1 := F.grow.alive c hca
  have hn1 : w1.heap.data n = some d1 := by rw [F.grow.data n ha, hd1]
  have hb1 : w1.heap.mutB n = false := by rw [F.grow.mutB n ha, b1]
  have e2 : w1.heap.serNext (Dft.start n) = .ok (some (.ok (.opn d1)), some (.opn c, n)) := by
    simp [Heap.serNext, Dft.next, Dft.start, Heap.borrowData, hb1, hn1,
      evNext_inner I1.wf.toFShape ha1 hchn, Except.map]
  have hdm : w1.heap.data m = some d1 := by rw [hm]; exact F.data
  have hmbm : w1.heap.mutB m = false := by rw [hm]; exact F.mutB
  have h1a : w1.heap.alive m = true := by rw [hm]; exact F.alive_new
  obtain ⟨w2, e3, S⟩ := Builder.withRoot_ok (t0 := .node m []) (u0 := .node d1 []) (E := [some d1]) I1 hr1
    hroom1 hmk hmT (by omega) (by simp [SubtreeAt, label, Hier, HierL, hchm])
    (by simp [HasData, RTree.map, mapL, hdm])
    (by simp [Describes, steps_node, stepsL_nil])
  have hnm : (RTree.node m []).nodes = [m] := by simp [nodes, nodesL]
  rw [hnm] at S
  obtain ⟨x, ks, fs, hb, hfs, O⟩ := S.open_of_pos (by omega)
  obtain rfl : fs = [] := List.eq_nil_of_length_eq_zero (by omega)
  obtain rfl : x = m := by simpa using hb.symm
  have hks : ks = [] := by
    have := O.ok.1
    rw [hchm] at this
    simpa using this.symm
  subst hks
  have R := O.run
  have ha2 : w2.heap.alive c = true := R.grow.alive c hca1
  have hd2c : w2.heap.data c = some d2 := by
    rw [R.grow.data c hca1]; show w1.heap.data c = _
    rw [F.grow.data c hca, hd2]
  have hb2c : w2.heap.mutB c = false := by
    rw [R.grow.mutB c hca1]; show w1.heap.mutB c = _
    rw [F.grow.mutB c hca, b2]
  have hbm : w2.heap.mutB x = false := by
    rw [R.grow.mutB x h1a]; exact hmbm
  have e4 : w2.heap.serNext (some (.opn c, n)) = .ok (some (.ok (.opn d2)), some (.cls c, n)) := by
    simp [Heap.serNext, Dft.next, Heap.borrowData, hb2c, hd2c, evNext_leaf R.inv.wf.toFShape ha2 hchc,
      Except.map]
  obtain ⟨w3, ch3, p3, O3, m3, a3, G3⟩ := O.opn d2
  have p3' : Builder.push w2 ⟨some x, some x⟩ (.opn d2) = .ok (w3, ⟨some x, some w2.heap.nNode⟩, .ok ()) := p3
  have hcx : c ≠ x := by rintro rfl; rw [hfresh] at hca; cases hca
  have hch3 : ch3 n = [] ++ c :: x :: [] := by
    rw [O3.run.keep n ha1 hmn.symm, hchn]
  have e5 : w3.heap.serNext (some (.cls c, n)) = .ok (some (.ok (.close 1)), some (.opn x, n)) := by
    have : w3.heap.evNext (.cls c) = some (.opn x) := evNext_sib O3.run.inv.wf.toFShape hch3
    simp [Heap.serNext, Dft.next, hcn, this, Heap.countCloses, Dft.peek]
  obtain ⟨hne, w4, w5, q1, q2, S5, O5⟩ := O3.pop
  have p5 : Builder.push w3 ⟨some x, some w2.heap.nNode⟩ (.close 1) = .ok (w5, ⟨some x, some x⟩, .ok ()) := by
    simp [Builder.push, Builder.close, Builder.closeLoop, bind, Except.bind, q1, q2, pure, Except.pure]
  have hfold : Builder.fold f w2 (some (.opn c, n)) ⟨some x, some x⟩ = .error .diverge := by
    match f with
    | 0 => rfl
    | 1 => rw [Builder.fold_step e4 p3']; rfl
    | f + 2 =>
      rw [Builder.fold_step e4 p3', Builder.fold_step e5 p5]
      refine Opened.forever (w0 := w1.take .hot x) (st := n) ha1 hmn.symm f O5 ?_ ?_
      · rw [S5.mutB, G3.mutB x (R.grow.alive x h1a)]; exact hbm
      · rw [S5.mutB]; exact m3
  simp only [Builder.tryCloneInsert, Heap.borrowData, b1, hd1, Bool.false_eq_true, if_false, bind,
    Except.bind, pure, Except.pure, InsertAs.anchor, InsertAs.toAdoptAs, e1, e2, e3, hfold]

end Dendron
