import Verif.Proofs.BuildEnd
import Verif.Proofs.Anc

/-! `close` with too many levels; builders started with `with_root`. -/

set_option linter.unusedSimpArgs false
set_option linter.unusedVariables false

set_option autoImplicit false

namespace Dendron
open RTree
variable {α β : Type} {w w' w0 : World α} {ch ch' ch0 : NodeId → List NodeId}
  {r c x : NodeId} {T : TreeId} {ps cs : List NodeId} {k : Kind}
  {E : List (Option α)} {N : List NodeId} {b : Builder} {ks : List (RTree NodeId)}
  {fs : List (Frame NodeId)}

theorem closeLoop_false {r : NodeId} : ∀ (m i : Nat) {w w' : World α} {c c' : NodeId},
    Builder.closeLoop r m w c = .ok (w', c', false) → m ≤ i →
    Builder.closeLoop r i w c = .ok (w', c', false)
  | 0, i, w, w', c, c', h, hi => by simp [Builder.closeLoop] at h
  | m + 1, 0, w, w', c, c', h, hi => by omega
  | m + 1, i + 1, w, w', c, c', h, hi => by
    unfold Builder.closeLoop at h ⊢
    by_cases e : c = r
    · simp only [e, if_true] at h ⊢; exact h
    · simp only [e, if_false, bind, Except.bind, pure, Except.pure] at h ⊢
      revert h
      cases hx : w.exec (.nav .hot .parent c) with
      | error f => simp
      | ok a =>
        obtain ⟨w1, res⟩ := a
        simp only
        cases res <;> (try simp only) <;> try exact id
        rename_i o
        cases o with
        | none => simp only; exact id
        | some p =>
          simp only
          cases hy : w1.exec (.drop .hot c) with
          | error f => simp
          | ok a =>
            obtain ⟨w2, res2⟩ := a
            simp only
            intro h
            exact closeLoop_false m i h (by omega)

theorem closeLoop_step {r : NodeId} : ∀ (m : Nat) {w w1 : World α} {c c1 : NodeId},
    Builder.closeLoop r m w c = .ok (w1, c1, true) →
    Builder.closeLoop r (m + 1) w c = Builder.closeLoop r 1 w1 c1
  | 0, w, w1, c, c1, h => by
    simp only [Builder.closeLoop, Except.ok.injEq, Prod.mk.injEq] at h
    obtain ⟨rfl, rfl, -⟩ := h; rfl
  | m + 1, w, w1, c, c1, h => by
    rw [Builder.closeLoop] at h ⊢
    by_cases e : c = r
    · simp only [e, if_true] at h; simp at h
    · simp only [e, if_false, bind, Except.bind, pure, Except.pure] at h ⊢
      revert h
      cases hx : w.exec (.nav .hot .parent c) with
      | error f => simp
      | ok a =>
        obtain ⟨w1, res⟩ := a
        simp only
        cases res <;> (try simp only) <;> try (intro h; simp at h)
        rename_i o
        cases o with
        | none => simp only; intro h; simp at h
        | some p =>
          simp only
          cases hy : w1.exec (.drop .hot c) with
          | error f => simp
          | ok a =>
            obtain ⟨w2, res2⟩ := a
            simp only
            intro h
            exact closeLoop_step m h

/-- `close` with too many levels closes all nodes but the root, and fails. -/
theorem Opened.close_fail (O : Opened w0 ch0 w ch r T N E x ks fs) {n : Nat} (hn : fs.length + 1 < n) :
    ∃ w', Builder.close w ⟨some r, some x⟩ n = .ok (w', ⟨some r, some r⟩, .error .rootClosed) ∧
      Builder.close w ⟨some r, some x⟩ fs.length = .ok (w', ⟨some r, some r⟩, .ok ()) := by
  obtain ⟨w', x', ks', fs', e1, S1, O1, hl⟩ := O.loop fs.length
  simp only [Nat.le_refl, decide_true] at e1
  have hfs : fs' = [] := List.eq_nil_of_length_eq_zero (by omega)
  subst hfs
  have hx' : x' = r := O1.bottom
  subst hx'
  have e2 : Builder.closeLoop x' (fs.length + 1) w x = .ok (w', x', false) := by
    rw [closeLoop_step _ e1]; simp [Builder.closeLoop]
  refine ⟨w', ?_, ?_⟩
  · have e3 := closeLoop_false _ (n - 1) e2 (by omega)
    simp only [Builder.close, show n ≠ 0 by omega, if_false, e3, bind, Except.bind, pure, Except.pure]
  · cases hfl : fs.length with
    | zero =>
      rw [hfl] at e1
      simp only [Builder.closeLoop, Except.ok.injEq, Prod.mk.injEq, and_true] at e1
      obtain ⟨rfl, rfl⟩ := e1
      simp [Builder.close]
    | succ m =>
      obtain ⟨w1, x1, ks1, fs1, f1, S2, O2, hl2⟩ := O.loop m
      simp only [hfl, show m ≤ m + 1 by omega, decide_true] at f1
      have h1 : Builder.closeLoop x' (m + 1) w x = Builder.closeLoop x' 1 w1 x1 := closeLoop_step _ f1
      rw [← hfl, e1] at h1
      simp only [Builder.close, show m + 1 ≠ 0 by omega, if_false, Nat.add_sub_cancel, f1, bind,
        Except.bind, pure, Except.pure]
      revert h1
      rw [Builder.closeLoop]
      by_cases e : x1 = x'
      · simp [e]
      · simp only [e, if_false, bind, Except.bind, pure, Except.pure]
        cases hx : w1.exec (.nav .hot .parent x1) with
        | error f => simp
        | ok a =>
          obtain ⟨w2, res⟩ := a
          simp only
          cases res <;> (try simp only) <;> try (intro h; simp at h)
          rename_i o
          cases o with
          | none => simp only; intro h; simp at h
          | some p =>
            simp only
            cases hy : w2.exec (.drop .hot x1) with
            | error f => simp
            | ok a =>
              obtain ⟨w3, res2⟩ := a
              simp only [Builder.closeLoop]
              intro h
              simp only [Except.ok.injEq, Prod.mk.injEq, and_true] at h
              obtain ⟨rfl, rfl⟩ := h
              rfl

/-- Events that fit, whatever the root of the builder is. -/
theorem BState.pushAll_ok : ∀ (l : List (Event α)) {w : World α} {ch : NodeId → List NodeId} {b : Builder}
    {E : List (Option α)} {k : Nat}, BState w0 ch0 w ch r T N E b k →
    (∃ i t, Describes (E ++ Event.expand l) i t) →
    ∃ w' ch' b' j, Builder.pushAll w b l = .ok (w', b', .ok ()) ∧
      BState w0 ch0 w' ch' r T N (E ++ Event.expand l) b' j ∧ (∀ p, r ∈ ch' p ↔ r ∈ ch p)
  | [], w, ch, b, E, k, S, _ => by
    refine ⟨w, ch, b, k, rfl, ?_, fun _ => Iff.rfl⟩
    simpa [Event.expand] using S
  | e :: l, w, ch, b, E, k, S, hg => by
    have hexp : E ++ Event.expand (e :: l) = E ++ Event.expand [e] ++ Event.expand l := by
      rw [List.append_assoc, ← expand_append]; rfl
    have h1 : ∃ j t, Describes (E ++ Event.expand [e]) j t := by
      obtain ⟨i, t, h⟩ := hg
      rw [hexp] at h
      rcases h.of_append with h3 | h3
      · obtain ⟨u, s, hd, -⟩ := S.facts
        have he : E = [] := (List.append_eq_nil_iff.1 h3).1
        rw [h3]; rw [he] at hd; exact ⟨_, _, hd⟩
      · exact h3
    obtain ⟨w1, ch1, b1, j1, e1, S1, h2, -⟩ := S.push_ok e h1
    obtain ⟨w', ch', b', j, e2, S2, h3⟩ := BState.pushAll_ok l S1 (by rw [← hexp]; exact hg)
    refine ⟨w', ch', b', j, ?_, by rw [hexp]; exact S2, fun p => (h3 p).trans (h2 p)⟩
    simp only [Builder.pushAll, e1, bind, Except.bind]; exact e2

/-- `with_root`. -/
theorem Builder.withRoot_ok {t0 : RTree NodeId} {u0 : RTree α} (I : Inv w ch) (hr : Reach w)
    (hroom : Room w.heap) (hk : 0 < w.held .hot r) (ht : w.heap.memTree r = some T)
    (hsmall : w.heap.grants T + 4 ≤ 2 ^ 62) (h0 : SubtreeAt ch r t0) (hd : HasData w.heap t0 u0)
    (hE : Describes E 1 u0) :
    ∃ w', Builder.withRoot w r = .ok (w', ⟨some r, some r⟩) ∧
      BState (w.take .hot r) ch w' ch r T t0.nodes E ⟨some r, some r⟩ 1 := by
  have R := Run.ofHot I hr hroom hk ht hsmall
  obtain ⟨w1, e1, S1, R1⟩ := R.plainOf (c := r) (by simp) (by simp)
  refine ⟨w1, ?_, ?_⟩
  · simp only [Builder.withRoot, e1, bind, Except.bind, pure, Except.pure]
  · cases t0 with
    | node v cs =>
      obtain ⟨h1, h2⟩ := h0
      have hv : v = r := h1
      subst hv
      have hn : nodesF [(v, cs)] = (node v cs).nodes := by simp [nodesF, nodes]
      have hal : ∀ y ∈ (node v cs).nodes, w.heap.alive y = true := fun y hy =>
        I.wf.desc_alive (I.held_alive hk) ((SubtreeAt.mem_nodes_iff ⟨h1, h2⟩ y).1 hy)
      refine .opened (fs := []) (ks := cs) ⟨R1, ⟨by rw [h2.1]; simp, h2.2, trivial⟩, rfl, ?_, ?_, ?_, ?_, ?_⟩
      · rw [hn]; exact SubtreeAt.nodup I.wf.toFShape ⟨h1, h2⟩
      · intro y hy; rw [hn] at hy; rw [S1.alive]; exact hal y hy
      · intro p hp; simp only [List.mem_singleton] at hp; subst hp; exact .inl rfl
      · have hm := (Matches.tree (f := w.heap.data)).2 hd
        rw [← show E ++ List.replicate 1 none = u0.steps from hE, steps_node] at hm
        rw [S1.data]
        have : enc [(v, cs)] = some v :: stepsL cs := by simp [enc]
        rw [this]
        rw [Matches] at hm ⊢
        simp only [List.map_append, List.map_cons, List.replicate_one, List.map_nil] at hm
        rw [← List.cons_append] at hm
        exact List.append_cancel_right hm
      · intro y hy; rw [hn] at hy; exact .inl hy

/-- New nodes are in the subtree of the root of the builder. -/
theorem Run.inside (R : Run w0 ch0 w ch r T ps cs) (W0 : WF w0.heap ch0)
    (hT : T < w0.heap.nTree) (hx : w.heap.alive x = true)
    (hx0 : w0.heap.alive x = false) : Desc ch r x := by
  have I := R.inv
  obtain ⟨l, hl⟩ := I.wf.toFShape.exists_anc hx
  induction hl with
  | root hp =>
    rename_i x
    exfalso
    have hm := R.mine x hx hx0
    have hpn : w.heap.parent x = none := by
      cases hq : w.heap.parent x with
      | none => rfl
      | some q => exact absurd ((I.wf.toFShape.mem q x).2 ⟨hx, hq⟩) (hp q)
    have h1 := I.wf.tree.top x T hx hpn hm
    rw [R.grow.root T hT] at h1
    have := (W0.tree.root T x h1).1
    rw [hx0] at this; cases this
  | step hm hl ih =>
    rename_i x p l
    cases hp0 : w0.heap.alive p with
    | false => exact .step (ih (I.wf.alive_parent hm) hp0) hm
    | true =>
      by_cases e : p = r
      · subst e; exact .step (.refl _) hm
      · exfalso
        rw [R.keep p hp0 e] at hm
        rw [W0.alive_of_mem hm] at hx0; cases hx0

end Dendron
