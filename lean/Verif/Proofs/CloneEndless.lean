import Verif.Proofs.CloneInside
import Verif.Proofs.StaleAll

/-! `try_clone_insert_subtree` to a place inside the source. -/

set_option linter.unusedSimpArgs false
set_option autoImplicit false

namespace Dendron
open RTree
variable {α : Type} {w w' w0 w1 : World α} {ch ch' ch0 ch1 : NodeId → List NodeId}
  {r c x n p m : NodeId} {T : TreeId} {d : α}

theorem Desc.mono {a b : NodeId} (h : ∀ x y, y ∈ ch x → y ∈ ch1 x) (hd : Desc ch a b) : Desc ch1 a b := by
  induction hd with
  | refl => exact .refl _
  | step _ hm ih => exact .step ih (h _ _ hm)

/-- The new node is the only new descendant. -/
theorem Desc.of_insert {l1 l2 : List NodeId} (hp : ch p = l1 ++ l2) (hm : ch m = []) (hmp : m ≠ p)
    {a b : NodeId} (hd : Desc (upd ch p (l1 ++ m :: l2)) a b) : a ≠ m → b = m ∨ Desc ch a b := by
  induction hd with
  | refl => intro _; exact .inr (.refl _)
  | @step q y _ hmem ih =>
    intro ham
    rcases ih ham with rfl | h
    · rw [upd_ne _ _ hmp, hm] at hmem; simp at hmem
    · by_cases hq : q = p
      · subst hq
        simp only [upd_same, List.mem_append, List.mem_cons] at hmem
        by_cases hym : y = m
        · exact .inl hym
        · refine .inr (.step h ?_)
          rw [hp]; simp only [List.mem_append]
          rcases hmem with h1 | h1 | h1
          · exact .inl h1
          · exact absurd h1 hym
          · exact .inr h1
      · rw [upd_ne _ _ hq] at hmem
        exact .inr (.step h hmem)

/-- The subtree of `n` after a new node was put somewhere below it. -/
theorem Course.of_insert {l1 l2 : List NodeId} {t t1 : RTree NodeId} (S : FShape w0.heap ch1)
    (hch1 : ch1 = upd ch p (l1 ++ m :: l2)) (hp : ch p = l1 ++ l2) (hm : ch m = []) (hmp : m ≠ p)
    (hmn : m ≠ n) (hin : Desc ch n p) (hcase : ¬ (p = n ∧ l1 = [])) (hml : m ∉ l1)
    (hmq : ∀ q, m ∉ ch q)
    (ht : SubtreeAt ch n t) (ht1 : SubtreeAt ch1 n t1) (hs : 2 * t.size ≤ usizeMax)
    (hal : ∀ x ∈ t.nodes, w0.heap.alive x = true)
    (ham : w0.heap.alive m = true ∧ w0.heap.mutB m = false) :
    ∃ A' B, Course w0 ch1 n m (some n :: A') B ∧ t1.steps = some n :: A' ++ some m :: none :: B ∧
      ∀ v, some v ∈ some n :: A' → v ∈ t.nodes := by
  have hm1 : ch1 m = [] := by rw [hch1, upd_ne _ _ hmp, hm]
  have hd1 : Desc ch1 n m := by
    refine .step (m := p) (Desc.mono ?_ hin) (by rw [hch1]; simp)
    intro x y hy
    rw [hch1]
    by_cases hx : x = p
    · subst hx; rw [hp] at hy; simp only [upd_same, List.mem_append, List.mem_cons] at hy ⊢
      rcases hy with h | h
      · exact .inl h
      · exact .inr (.inr h)
    · rw [upd_ne _ _ hx]; exact hy
  have hnd := ht1.nodup S
  have hsub : ∀ x ∈ t1.nodes, x ∈ m :: t.nodes := by
    intro x hx
    have := (ht1.mem_nodes_iff x).1 hx
    rw [hch1] at this
    rcases Desc.of_insert hp hm hmp this hmn.symm with h | h
    · simp [h]
    · exact List.mem_cons_of_mem _ ((ht.mem_nodes_iff x).2 h)
  obtain ⟨A, B, h1, h2, h3⟩ := Hier.plug t1 ht1.2 hnd ((ht1.mem_nodes_iff m).2 hd1) hm1
  have hold : ∀ v, some v ∈ A → v ∈ t.nodes := by
    intro v hv
    obtain ⟨g1, g2⟩ := h1 v hv
    simpa [g2] using hsub v g1
  have hlab := ht1.1
  cases A with
  | nil =>
    cases t1 with
    | node v cs =>
      rw [steps_node] at h2
      simp only [List.nil_append, List.cons_append, List.cons.injEq, Option.some.injEq] at h2
      exact absurd (h2.1.symm.trans hlab) hmn
  | cons a A' =>
    have ha : a = some n := by
      cases t1 with
      | node v cs =>
        rw [steps_node] at h2
        simp only [List.cons_append, List.cons.injEq] at h2
        rw [← h2.1]; exact congrArg some hlab
    subst ha
    refine ⟨A', B, ⟨?_, ?_, by simp, ?_, ?_, ?_, ?_, ham⟩, h2, hold⟩
    · intro ch2 s hk hs2
      have hk' : ∀ x ∈ t1.nodes, x ≠ m → ch2 x = ch1 x := by
        intro x hx hxm
        have := hsub x hx
        exact hk x (hal x (by simpa [hxm] using this)) hxm
      obtain ⟨t2, g1, g2, g3⟩ := h3 ch2 s hk' hs2
      exact ⟨t2, ⟨g1.trans hlab, g2⟩, g3⟩
    · have hbal := steps_balance t1
      have ho := steps_within h2 (by simp) (by simp)
      rintro rfl
      rw [h2] at hbal
      simp [List.countP_append, List.countP_cons] at hbal ho
      omega
    · cases A' with
      | cons _ _ => simp
      | nil =>
        exfalso
        cases t1 with
        | node v cs =>
          have hv : v = n := hlab
          subst hv
          have hc := ht1.2.1
          rw [steps_node] at h2
          simp only [List.cons_append, List.nil_append, List.cons.injEq, true_and] at h2
          cases cs with
          | nil => simp [stepsL_nil] at h2
          | cons c cs =>
            cases c with
            | node y ys =>
              rw [stepsL_cons, steps_node] at h2
              simp only [List.cons_append, List.cons.injEq, Option.some.injEq] at h2
              obtain ⟨rfl, -⟩ := h2
              simp only [List.map_cons, label] at hc
              by_cases hvp : v = p
              · subst hvp
                rw [hch1] at hc
                simp only [upd_same] at hc
                cases l1 with
                | nil => exact hcase ⟨rfl, rfl⟩
                | cons z l1 =>
                  simp only [List.cons_append, List.cons.injEq] at hc
                  exact hml (by simp [hc.1])
              · rw [hch1, upd_ne _ _ hvp] at hc
                exact hmq v (by rw [← hc]; simp)
    · have hl := congrArg List.length h2
      have h5 : t1.steps.length = 2 * t1.nodes.length := by
        rw [RTree.steps, List.length_map, events_length]
      have h6 := nodup_length_sub hnd hsub
      unfold RTree.size at hs
      simp only [List.length_append, List.length_cons] at hl h6 ⊢
      omega
    · intro v hv
      exact hal v (hold v hv)
    · exact hal n (hold n (by simp))

/-- The beginning of `try_clone_insert_subtree` to a place inside the source, unless the new node is to
become the first child of the source. -/
theorem Builder.cloneInsert_begin {f : Nat} {dest : InsertAs NodeId} {l1 l2 : List NodeId}
    {t : RTree NodeId} (hr : Reach w)
    (hroom : Room w.heap) (I : Inv w ch) (hk : 0 < w.held .hot dest.anchor)
    (hT : w.heap.memTree dest.anchor = some T) (hs0 : w.heap.grants T + 5 ≤ 2 ^ 62)
    (hd : DestSplit ch dest p l1 l2) (ha : w.heap.alive n = true) (ht : SubtreeAt ch n t)
    (hin : Desc ch n p) (hcase : ¬ (p = n ∧ l1 = [])) (hs : 2 * t.size ≤ usizeMax)
    (hbn : w.heap.mutB n = false) :
    ∃ d w1 w2 t1 A' B W, Fresh w w1 d T ∧ Inv w1 (upd ch p (l1 ++ w.heap.nNode :: l2)) ∧
      Course (w1.take .hot w.heap.nNode) (upd ch p (l1 ++ w.heap.nNode :: l2)) n w.heap.nNode
        (some n :: A') B ∧
      SubtreeAt (upd ch p (l1 ++ w.heap.nNode :: l2)) n t1 ∧ w1.heap.data n = some d ∧
      t1.steps = some n :: A' ++ some w.heap.nNode :: none :: B ∧
      evs [] (some n :: A' ++ [some w.heap.nNode]) = .opn n :: W ∧
      W.map DftEvent.toStep = A' ++ [some w.heap.nNode] ∧
      (∀ v, some v ∈ some n :: A' → v ∈ t.nodes) ∧
      BState (w1.take .hot w.heap.nNode) (upd ch p (l1 ++ w.heap.nNode :: l2)) w2
        (upd ch p (l1 ++ w.heap.nNode :: l2)) w.heap.nNode T [w.heap.nNode] [some d]
        ⟨some w.heap.nNode, some w.heap.nNode⟩ 1 ∧
      (Builder.fold f w2 (Dft.rest n W) ⟨some w.heap.nNode, some w.heap.nNode⟩ = .error .diverge →
        Builder.tryCloneInsert f w n dest = .error .diverge) ∧
      (∀ w3 b3, Builder.fold f w2 (Dft.rest n W) ⟨some w.heap.nNode, some w.heap.nNode⟩ =
          .ok (w3, b3, .error .borrowData) →
        Builder.tryCloneInsert f w n dest = (do
          let w ← Builder.dropAll w3 b3
          return (w, .error .borrowNodeData))) := by
  have hfresh := I.wf.toFShape.fresh_not_alive
  have hal : ∀ x ∈ t.nodes, w.heap.alive x = true := fun x hx =>
    I.wf.desc_alive ha ((ht.mem_nodes_iff x).1 hx)
  have hat : dest.toAdoptAs.at dest.anchor = dest := by cases dest <;> rfl
  have hpl : ch p = l1 ++ l2 := hd.list
  obtain ⟨d, hdn⟩ := Option.isSome_iff_exists.1 (show (w.heap.data n).isSome from ha)
  obtain ⟨w1, e1, I1, F⟩ := I.exec_create (d := d) (as := dest.toAdoptAs) hk (by rw [hat]; exact hd) hT
    (by simp only [Lock.isizeMax]; omega)
  have hr1 : Reach w1 := .step (op := .create .hot dest.anchor d dest.toAdoptAs) hr
    ⟨hk, fun _ _ => trivial, hroom, e1⟩
  have hroom1 : Room w1.heap := F.room I I1 hk hT hroom (by omega)
  have hg1 := F.grants I I1 hk hT
  obtain ⟨m, hm⟩ : ∃ m, m = w.heap.nNode := ⟨_, rfl⟩
  obtain ⟨ch1, hch1⟩ : ∃ ch1, ch1 = upd ch p (l1 ++ m :: l2) := ⟨_, rfl⟩
  rw [← hm] at I1 e1 hfresh ⊢
  rw [← hch1] at I1 ⊢
  have hmk : 0 < w1.held .hot m := by rw [F.held]; simp [hm]
  have hmT : w1.heap.memTree m = some T := by rw [hm]; exact F.memTree
  have hpa : w.heap.alive p = true := by
    rcases I.wf.toFShape.destSplit_parent (as := dest.toAdoptAs) (by rw [hat]; exact hd) with h | h
    · rw [h]; exact I.held_alive hk
    · exact I.wf.alive_parent h
  have hmp : m ≠ p := by rintro rfl; rw [hfresh] at hpa; cases hpa
  have hmn : m ≠ n := by rintro rfl; rw [hfresh] at ha; cases ha
  have hmq : ∀ q, m ∉ ch q := fun q hq => by
    have := I.wf.alive_of_mem hq; rw [hfresh] at this; cases this
  have hchm0 : ch m = [] := I.wf.dead m hfresh
  have hchm : ch1 m = [] := by rw [hch1, upd_ne _ _ hmp, hchm0]
  have ha1 := F.grow.alive n ha
  have hmbm : w1.heap.mutB m = false := by rw [hm]; exact F.mutB
  have h1a : w1.heap.alive m = true := by rw [hm]; exact F.alive_new
  obtain ⟨t1, ht1⟩ := I1.wf.exists_subtree n
  obtain ⟨A', B, K, hst, hold⟩ := Course.of_insert (w0 := w1.take .hot m) I1.wf.toFShape hch1 hpl hchm0 hmp hmn hin
    hcase (fun h => hmq p (by rw [hpl]; simp [h])) hmq ht ht1 hs
    (fun x hx => F.grow.alive x (hal x hx)) ⟨h1a, hmbm⟩
  -- the first event
  have hy := I1.wf.toShape.dft_yields ha1 ht1
  obtain ⟨hev, z, hz⟩ := evs_of_tree (t := t1) (a := some n :: A' ++ [some m]) (b := none :: B)
    (by rw [hst]; simp)
  obtain ⟨W, hW⟩ : ∃ W, evs [] (some n :: A' ++ [some m]) = .opn n :: W := by
    simp [evs]
  rw [hW] at hev hz
  rw [Dft.start_rest ht1.1, hz, List.cons_append] at hy
  obtain ⟨e0, -⟩ := Dft.yields_tail hy
  have hWm : W.map DftEvent.toStep = A' ++ [some m] := by
    simpa [DftEvent.toStep] using hev
  have hWn : W ≠ [] := by rintro rfl; simp at hWm
  have hn1 : w1.heap.data n = some d := by rw [F.grow.data n ha, hdn]
  have hb1 : w1.heap.mutB n = false := by rw [F.grow.mutB n ha, hbn]
  have e2 : w1.heap.serNext (Dft.start n) = .ok (some (.ok (.opn d)), Dft.rest n W) := by
    rw [Dft.start_rest ht1.1, hz, List.cons_append]
    simp [Heap.serNext, e0, Heap.borrowData, hb1, hn1, Except.map, Dft.rest_append hWn]
  -- the builder
  have hdm : w1.heap.data m = some d := by rw [hm]; exact F.data
  obtain ⟨w2, e3, S⟩ := Builder.withRoot_ok (t0 := .node m []) (u0 := .node d []) (E := [some d]) I1 hr1
    hroom1 hmk hmT (by omega) (by simp [SubtreeAt, label, Hier, HierL, hchm])
    (by simp [HasData, RTree.map, mapL, hdm])
    (by simp [Describes, steps_node, stepsL_nil])
  have hnm : (RTree.node m []).nodes = [m] := by simp [nodes, nodesL]
  rw [hnm] at S
  refine ⟨d, w1, w2, t1, A', B, W, F, I1, K, ht1, hn1, hst, hW, hWm, hold, S, ?_, ?_⟩
  · intro hfold
    simp only [Builder.tryCloneInsert, Heap.borrowData, hbn, hdn, Bool.false_eq_true, if_false, bind,
      Except.bind, pure, Except.pure, e1, e2, e3, hfold]
  · intro w3 b3 hfold
    simp only [Builder.tryCloneInsert, Heap.borrowData, hbn, hdn, Bool.false_eq_true, if_false, bind,
      Except.bind, pure, Except.pure, e1, e2, e3, hfold]

/-- A list with one place for `m`. -/
theorem split_unique {β : Type} {a b c d : List β} {m : β} (h : a ++ m :: b = c ++ m :: d)
    (hn : (a ++ m :: b).Nodup) : a = c := by
  have h1 : m ∉ a := by
    intro hm
    simp only [List.nodup_append, List.mem_cons] at hn
    exact hn.2.2 m hm m (.inl rfl) rfl
  have h2 : m ∉ c := by
    rw [h] at hn
    intro hm
    simp only [List.nodup_append, List.mem_cons] at hn
    exact hn.2.2 m hm m (.inl rfl) rfl
  clear hn
  induction a generalizing c with
  | nil =>
    cases c with
    | nil => rfl
    | cons x c => simp at h h2; exact absurd h.1 h2.1
  | cons y a ih =>
    cases c with
    | nil => simp at h h1; exact absurd h.1.symm h1.1
    | cons x c =>
      simp only [List.cons_append, List.cons.injEq, List.mem_cons, not_or] at h h1 h2
      rw [h.1, ih h.2 h1.2 h2.2]

theorem mem_pre {t : RTree NodeId} {A B : List (Option NodeId)} {pre post : List NodeId}
    (hst : t.steps = A ++ some m :: none :: B) (hpre : t.nodes = pre ++ m :: post) (hnd : t.nodes.Nodup)
    (v : NodeId) : some v ∈ A ↔ v ∈ pre := by
  have h : t.nodes = A.filterMap id ++ m :: B.filterMap id := by
    rw [nodes_steps, hst]; simp
  have := split_unique (hpre.symm.trans h) (hpre ▸ hnd)
  rw [this, List.mem_filterMap]
  simp

/-- `try_clone_insert_subtree` to a place inside the source, unless the new node is to become the first
child of the source: no node before the place has borrowed data. -/
theorem Builder.cloneInsert_endless {f : Nat} {dest : InsertAs NodeId} {l1 l2 : List NodeId}
    {t : RTree NodeId} (hr : Reach w)
    (hroom : Room w.heap) (I : Inv w ch) (hk : 0 < w.held .hot dest.anchor)
    (hT : w.heap.memTree dest.anchor = some T) (hs0 : w.heap.grants T + 5 ≤ 2 ^ 62)
    (hd : DestSplit ch dest p l1 l2) (ha : w.heap.alive n = true) (ht : SubtreeAt ch n t)
    (hin : Desc ch n p) (hcase : ¬ (p = n ∧ l1 = [])) (hs : 2 * t.size ≤ usizeMax)
    (hbn : w.heap.mutB n = false)
    (hb : ∀ t' pre post, SubtreeAt (upd ch p (l1 ++ w.heap.nNode :: l2)) n t' → t'.nodes.Nodup →
      t'.nodes = pre ++ w.heap.nNode :: post → ∀ x ∈ pre, x ∈ t.nodes → w.heap.mutB x = false) :
    Builder.tryCloneInsert f w n dest = .error .diverge := by
  obtain ⟨d, w1, w2, t1, A', B, W, F, I1, K, ht1, hn1, hst, hW, hWm, hold, S, hdiv, -⟩ :=
    Builder.cloneInsert_begin (f := f) hr hroom I hk hT hs0 hd ha ht hin hcase hs hbn
  have hfresh := I.wf.toFShape.fresh_not_alive
  obtain ⟨m, hm⟩ : ∃ m, m = w.heap.nNode := ⟨_, rfl⟩
  rw [← hm] at K hst hW hWm S hdiv ht1 I1 hfresh hb
  have hmp : m ≠ p := by
    rintro rfl
    rw [I.wf.desc_alive ha hin] at hfresh; cases hfresh
  have hchm : upd ch p (l1 ++ m :: l2) m = [] := by rw [upd_ne _ _ hmp]; exact I.wf.dead m hfresh
  have hKb : ∀ v, some v ∈ some n :: A' → (w1.take .hot m).heap.mutB v = false := by
    intro v hv
    have hva := I.wf.desc_alive ha ((ht.mem_nodes_iff v).1 (hold v hv))
    have hpre : t1.nodes = (some n :: A').filterMap id ++ m :: B.filterMap id := by
      rw [nodes_steps, hst]; simp
    exact (F.grow.mutB v hva).trans (hb t1 _ _ ht1 (ht1.nodup I1.wf.toFShape) hpre v (List.mem_filterMap.2 ⟨some v, hv, rfl⟩) (hold v hv))
  obtain ⟨x, ks, fs, hbx, hfs, O⟩ := S.open_of_pos (by omega)
  obtain rfl : fs = [] := List.eq_nil_of_length_eq_zero (by omega)
  obtain rfl : x = m := by simpa using hbx.symm
  have hks : ks = [] := by
    have := O.ok.1
    rw [hchm] at this
    simpa using this.symm
  subst hks
  exact hdiv (Chase.forever K hKb f (w := w2) (x := x) (R := [.opn n]) (W := W) (T := T)
    ⟨⟨_, _, [], [], O, by simpa [enc, stepsL_nil] using hW.symm⟩, by simp, by
      have := congrArg List.length hWm; simpa using this, by
      rw [hWm]; simp [List.countP_append, List.countP_cons]⟩)

/-- `try_clone_insert_subtree` to a place inside the source, unless the new node is to become the first
child of the source: a node before the place has borrowed data. -/
theorem Builder.cloneInsert_caught {f : Nat} {dest : InsertAs NodeId} {l1 l2 pre post : List NodeId}
    {t t' : RTree NodeId} (hr : Reach w)
    (hroom : Room w.heap) (I : Inv w ch) (hk : 0 < w.held .hot dest.anchor)
    (hT : w.heap.memTree dest.anchor = some T) (hs0 : w.heap.grants T + 5 ≤ 2 ^ 62)
    (hd : DestSplit ch dest p l1 l2) (ha : w.heap.alive n = true) (ht : SubtreeAt ch n t)
    (hin : Desc ch n p) (hcase : ¬ (p = n ∧ l1 = [])) (hs : 2 * t.size ≤ usizeMax)
    (hf : 2 * t.size < f)
    (ht' : SubtreeAt (upd ch p (l1 ++ w.heap.nNode :: l2)) n t')
    (hpre : t'.nodes = pre ++ w.heap.nNode :: post)
    (hbn : w.heap.mutB n = false) (hb : ∃ x ∈ pre, w.heap.mutB x = true) :
    ∃ w' ch' v, Builder.tryCloneInsert f w n dest = .ok (w', .error .borrowNodeData) ∧ Reach w' ∧
      WF w'.heap ch' ∧ Untouched w w' ch ch' (some p) ∧ ch' p = l1 ++ w.heap.nNode :: l2 ∧
      NewSubtree w w' ch' T w.heap.nNode v ∧ (∀ k x, w'.held k x = w.held k x) := by
  obtain ⟨d, w1, w2, t1, A', B, W, F, I1, K, ht1, hn1, hst, hW, hWm, hold, S, -, hcaught⟩ :=
    Builder.cloneInsert_begin (f := f) hr hroom I hk hT hs0 hd ha ht hin hcase hs hbn
  obtain rfl := ht1.unique ht'
  have hpa := I.wf.desc_alive ha hin
  have hfailed := @Builder.cloneInsert_failed α w w1 ch p T d
  have hnewa := F.alive_new
  obtain ⟨m, hm⟩ : ∃ m, m = w.heap.nNode := ⟨_, rfl⟩
  rw [← hm] at K hst hW hWm S hpre ht1 I1 hfailed hnewa ⊢
  have hal1 : ∀ v, some v ∈ some n :: A' → w1.heap.alive v = true := fun v hv =>
    F.grow.alive v (I.wf.desc_alive ha ((ht.mem_nodes_iff v).1 (hold v hv)))
  have hWal : ∀ v, DftEvent.opn v ∈ W → v = m ∨ some v ∈ some n :: A' := by
    intro v hv
    have : some v ∈ A' ++ [some m] := by
      rw [← hWm]; exact List.mem_map.2 ⟨_, hv, rfl⟩
    simp only [List.mem_append, List.mem_singleton, Option.some.injEq] at this
    rcases this with h | h
    · exact .inr (List.mem_cons_of_mem _ h)
    · exact .inl h
  have hnd := ht1.nodup I1.wf.toFShape
  have hbw : ∃ v, DftEvent.opn v ∈ W ∧ (w1.take .hot m).heap.mutB v = true := by
    obtain ⟨x, hx, hbx⟩ := hb
    have hxA := (mem_pre hst hpre hnd x).2 hx
    have hxa := I.wf.desc_alive ha ((ht.mem_nodes_iff x).1 (hold x hxA))
    have hxn : x ≠ n := by rintro rfl; rw [hbn] at hbx; cases hbx
    have hx' : some x ∈ W.map DftEvent.toStep := by
      rw [hWm]
      simp only [List.mem_cons, Option.some.injEq, hxn, false_or] at hxA
      simp [hxA]
    obtain ⟨e, he, hex⟩ := List.mem_map.1 hx'
    cases e with
    | cls y => simp [DftEvent.toStep] at hex
    | opn y =>
      simp only [DftEvent.toStep, Option.some.injEq] at hex
      subst hex
      exact ⟨y, he, (F.grow.mutB y hxa).trans hbx⟩
  -- the data
  obtain ⟨u, hu⟩ := exists_data (h := w1.heap) t1 (fun x hx => I1.wf.desc_alive (F.grow.alive n ha)
    ((ht1.mem_nodes_iff x).1 hx))
  have hmat := (Matches.tree (f := w1.heap.data)).2 hu
  rw [hst, show some n :: A' ++ some m :: none :: B = [some n] ++ ((A' ++ [some m]) ++ (none :: B)) by simp]
    at hmat
  obtain ⟨Y0, Y12, hY, hm0, hm12⟩ := Matches.split hmat
  obtain ⟨Y, Z, rfl, hmY, -⟩ := Matches.split hm12
  obtain rfl : Y0 = [some d] := hm0.inj (.some hn1)
  have hyp : ∀ {w' : World α} {ch' : NodeId → List NodeId} {E : List (Option α)} {b : Builder} {k : Nat},
      BState (w1.take .hot m) (upd ch p (l1 ++ m :: l2)) w' ch' m T [m] E b k →
      ∃ z, Yields (Dft.next w'.heap) (Dft.rest n (W ++ z)) (W ++ z) ∧
        (W ++ z).length ≤ 2 * w'.heap.nNode := by
    intro w' ch' E b k S'
    have R' := S'.run
    have hna : w'.heap.alive n = true := R'.grow.alive n K.alive
    obtain ⟨s, hs'⟩ := R'.inv.wf.exists_subtree m
    obtain ⟨t2, ht2, hst2⟩ := K.tree ch' s R'.keep hs'
    obtain ⟨zs, hzs⟩ : ∃ zs, s.steps = some m :: zs := by
      cases s with
      | node v vs =>
        obtain rfl : v = m := hs'.1
        exact ⟨_, by rw [steps_node]⟩
    obtain ⟨-, z, hz⟩ := evs_of_tree (t := t2) (a := some n :: A' ++ [some m]) (b := zs ++ B)
      (by rw [hst2, hzs]; simp)
    rw [hW] at hz
    have hy := R'.inv.wf.toShape.dft_yields hna ht2
    have hsz := ht2.size_le R'.inv.wf.toFShape hna
    have hle := events_length t2
    rw [hz] at hle
    rw [Dft.start_rest ht2.1, hz, show DftEvent.opn n :: W ++ z = [.opn n] ++ (W ++ z) by simp] at hy
    refine ⟨z, Dft.yields_drop _ hy, ?_⟩
    simp only [List.length_append, List.length_cons] at hle ⊢
    omega
  have hsize := K.size
  have hlenW : W.length = A'.length + 1 := by
    have := congrArg List.length hWm; simpa using this
  have hlenf : W.length < f := by
    have hl := congrArg List.length hst
    have h5 : t1.steps.length = 2 * t1.nodes.length := by
      rw [RTree.steps, List.length_map, events_length]
    have h6 : t1.nodes.length ≤ (m :: t.nodes).length := by
      refine nodup_length_sub hnd ?_
      intro x hx
      have := (ht1.mem_nodes_iff x).1 hx
      have hmf : w.heap.alive m = false := by rw [hm]; exact I.wf.toFShape.fresh_not_alive
      have hmp : m ≠ p := by rintro rfl; rw [hpa] at hmf; cases hmf
      have hmn : n ≠ m := by rintro rfl; rw [ha] at hmf; cases hmf
      rcases Desc.of_insert hd.list (I.wf.dead m hmf) hmp this hmn with h | h
      · simp [h]
      · exact List.mem_cons_of_mem _ ((ht.mem_nodes_iff x).2 h)
    unfold RTree.size at hf
    simp only [List.length_append, List.length_cons] at hl h6
    omega
  obtain ⟨w3, ch3, b3, E3, j3, S3, e3⟩ := BState.foldStop (u := u) (Z := Z) hyp
    (by simp only [List.length_cons] at hsize; omega)
    (fun v hv => by
      rcases hWal v hv with rfl | h
      · exact hnewa
      · exact hal1 v h) f (l := W) (pre := []) S rfl (by rw [hWm]; exact hmY)
    (by rw [hY]; simp) hlenf hbw
  rw [← hm] at hcaught
  obtain ⟨w4, v, e4, h⟩ := hfailed F I hpa hk hT S3
  exact ⟨w4, ch3, v, (hcaught w3 b3 e3).trans e4, h⟩

end Dendron
