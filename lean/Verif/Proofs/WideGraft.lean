import Verif.Proofs.WideTree
import Verif.Proofs.Undo
import Verif.Props.WideTree
import Verif.Props.Locks

/-! Copies put into a tree that exists, in the wider histories (C35, C53). -/

set_option linter.unusedSimpArgs false
set_option linter.unusedVariables false

set_option autoImplicit false

namespace Dendron
open RTree
variable {α : Type} {w w' w0 w1 : World α} {a a' a0 : Forest α} {r x y m p n : NodeId}
  {E : List (Option α)} {i : Nat} {b b' : Builder} {ks : List (RTree NodeId)} {fs : List (Frame NodeId)} {T : TreeId}
  {d : α} {pl : List NodeId}

/-! ### The loop, for any invariant -/

/-- The loop of the cloning methods, for any invariant `I` under which the source stays as it is and the events
that go on describing a tree are accepted. -/
theorem Builder.fold_any {t : RTree NodeId} {u : RTree α}
    {I : World α → Forest α → Builder → List (Option α) → Nat → Prop}
    (hI : ∀ {w a b E i}, I w a b E i → Shows w a ∧ E ≠ [] ∧ ∀ x ∈ t.nodes, a.children x = a0.children x ∧
      a.data x = a0.data x ∧ a.borrowed x = a0.borrowed x)
    (hmono : ∀ {w a b E i j}, I w a b E i → i ≤ j → I w a b E j)
    (hpush : ∀ {w a b E i} (e : Event α), I w a b E i → w0.RoomFor i →
      (∃ j t, Describes (E ++ Event.expand [e]) j t) →
      ∃ w' a' b', Builder.push w b e = .ok (w', b', .ok ()) ∧ I w' a' b' (E ++ Event.expand [e]) (i + 1))
    (S0 : Shows w0 a0) (hsub0 : SubtreeAt a0.children n t) (hal : ∀ x ∈ t.nodes, a0.data x ≠ none)
    (hdat : t.map w0.heap.data = u.map some) (hsz : 2 * t.size ≤ usizeMax) :
    ∀ (f : Nat) {l pre : List (DftEvent NodeId)} {w : World α} {a : Forest α} {b : Builder}
      {E : List (Option α)} {i : Nat}, I w a b E i → t.events = pre ++ l →
      Matches w0.heap.data (pre.map DftEvent.toStep) E → l.length < f → w0.RoomFor (i + l.length) →
      ∃ w' a' b' E', I w' a' b' E' (i + l.length) ∧
        (((∀ x, DftEvent.opn x ∈ l → w0.heap.mutB x = false) ∧
            Builder.fold f w (Dft.rest n l) b = .ok (w', b', .ok ()) ∧ E' = u.steps) ∨
          ((∃ x, DftEvent.opn x ∈ l ∧ w0.heap.mutB x = true) ∧
            Builder.fold f w (Dft.rest n l) b = .ok (w', b', .error .borrowData)))
  | 0, l, pre, w, a, b, E, i, A, he, hE, hf, R => by omega
  | f + 1, [], pre, w, a, b, E, i, A, he, hE, hf, R => by
    refine ⟨w, a, b, E, A, .inl ⟨by simp, ?_, ?_⟩⟩
    · have : w.heap.serNext (Dft.rest n []) = .ok (none, none) := rfl
      simp only [Builder.fold, this]
    · rw [List.append_nil] at he
      have hm := (Matches.tree (f := w0.heap.data)).2 hdat
      rw [RTree.steps, he] at hm
      rw [Matches] at hm hE
      rw [hE] at hm
      exact matches_inj hm
  | f + 1, e :: l, pre, w, a, b, E, i, A, he, hE, hf, R => by
    obtain ⟨S, hne, same⟩ := hI A
    have hsub : SubtreeAt a.children n t := ⟨hsub0.1, hsub0.2.congr fun x hx => (same x hx).1⟩
    have hlive : ∀ x ∈ t.nodes, w.heap.alive x = true := fun x hx =>
      S.alive.2 (by rw [(same x hx).2.1]; exact hal x hx)
    have hna : w.heap.alive n = true := hlive n ((hsub0.mem_nodes_iff n).2 (.refl _))
    have hy : Yields (Dft.next w.heap) (Dft.rest n (e :: l)) (e :: l) := by
      have := S.children.dft_yields hna hsub
      rw [Dft.start_rest hsub.1, he] at this
      exact Dft.yields_drop pre this
    have hlen : (e :: l).length ≤ t.events.length := by rw [he]; simp
    have h1 := hsub.size_le S.children hna
    have h2 := events_length t
    have h3 := hsz
    unfold RTree.size at h3
    have R0 : w0.RoomFor i := fun t => by have := R t; omega
    rcases serNext_rest hy (by omega) (by omega) with ⟨v, rfl, e1⟩ | ⟨c, mid, rest, rfl, e1, hmid⟩
    · have hv : v ∈ t.nodes := (mem_events_opn t).1 (by rw [he]; simp)
      obtain ⟨d, hd⟩ := Option.isSome_iff_exists.1 (show (w0.heap.data v).isSome from S0.alive.2 (hal v hv))
      have hdv : w.heap.data v = some d := by
        rw [← hd, ← S.data, ← S0.data]; exact (same v hv).2.1
      have hmv : w.heap.mutB v = w0.heap.mutB v := by
        have := (same v hv).2.2
        rw [S.borrowed, S0.borrowed, hlive v hv, S0.alive.2 (hal v hv)] at this
        simpa using this
      have hbd : w.heap.borrowData v = if w0.heap.mutB v then .error .mk else .ok d := by
        simp only [Heap.borrowData, hmv, hdv]
      cases hb : w0.heap.mutB v with
      | true =>
        refine ⟨w, a, b, E, hmono A (Nat.le_add_right _ _), .inr ⟨⟨v, by simp, hb⟩, ?_⟩⟩
        simp only [Builder.fold, e1, hbd, hb, if_true, Except.map]
      | false =>
        have hE' : Matches w0.heap.data ((pre ++ [DftEvent.opn v]).map DftEvent.toStep) (E ++ [some d]) := by
          rw [List.map_append]; exact hE.append (.some hd)
        have hx : Event.expand [Event.opn d] = [some d] := by simp [Event.expand]
        have hgood : ∃ j t, Describes (E ++ Event.expand [Event.opn d]) j t := by
          obtain ⟨Y, hY⟩ := matches_prefix (l.map DftEvent.toStep) hdat hE'
            (by rw [RTree.steps, he]; simp)
          rcases steps_prefix u _ _ hY with h | h
          · simp at h
          · rw [hx]; exact h
        obtain ⟨w1, a1, b1, e2, A1⟩ := hpush (.opn d) A R0 hgood
        rw [hx] at A1
        have hl : i + 1 + l.length = i + (DftEvent.opn v :: l).length := by simp only [List.length_cons]; omega
        obtain ⟨w2, a2, b2, E2, A2, h4⟩ := Builder.fold_any (I := I) hI hmono hpush S0 hsub0 hal hdat hsz f (l := l)
          (pre := pre ++ [.opn v]) A1 (by rw [he]; simp) hE' (by simp at hf; omega) (by rw [hl]; exact R)
        rw [hl] at A2
        have hfold : Builder.fold (f + 1) w (Dft.rest n (.opn v :: l)) b =
            Builder.fold f w1 (Dft.rest n l) b1 := by
          simp only [Builder.fold, e1, hbd, hb, Except.map, Bool.false_eq_true, if_false, e2, bind,
            Except.bind]
        refine ⟨w2, a2, b2, E2, A2, ?_⟩
        rw [hfold]
        rcases h4 with ⟨g1, g2, g3⟩ | ⟨⟨x, g1, g2⟩, g3⟩
        · refine .inl ⟨?_, g2, g3⟩
          intro x hx
          simp only [List.mem_cons, DftEvent.opn.injEq] at hx
          rcases hx with rfl | hx
          · exact hb
          · exact g1 x hx
        · exact .inr ⟨⟨x, by simp [g1], g2⟩, g3⟩
    · have hx : Event.expand [Event.close c] = List.replicate c (none : Option α) := by
        simp [Event.expand]
      have hE' : Matches w0.heap.data ((pre ++ (e :: mid)).map DftEvent.toStep)
          (E ++ List.replicate c none) := by
        rw [List.map_append, hmid]; exact hE.append (.none _)
      have hgood : ∃ j t, Describes (E ++ Event.expand [Event.close c]) j t := by
        obtain ⟨Y, hY⟩ := matches_prefix (rest.map DftEvent.toStep) hdat hE'
          (by rw [RTree.steps, he]; simp)
        rw [hx]
        rcases steps_prefix u _ _ hY with h | h
        · exact absurd (List.append_eq_nil_iff.1 h).1 hne
        · exact h
      obtain ⟨w1, a1, b1, e2, A1⟩ := hpush (.close c) A R0 hgood
      rw [hx] at A1
      have hl : i + 1 + rest.length ≤ i + (e :: (mid ++ rest)).length := by
        simp only [List.length_cons, List.length_append]; omega
      have R1 : w0.RoomFor (i + 1 + rest.length) := fun t => by have := R t; omega
      obtain ⟨w2, a2, b2, E2, A2, h4⟩ := Builder.fold_any (I := I) hI hmono hpush S0 hsub0 hal hdat hsz f (l := rest)
        (pre := pre ++ (e :: mid)) A1 (by rw [he]; simp) hE' (by simp at hf; omega) R1
      have hfold : Builder.fold (f + 1) w (Dft.rest n (e :: (mid ++ rest))) b =
          Builder.fold f w1 (Dft.rest n rest) b1 := by
        simp only [Builder.fold, e1, e2, bind, Except.bind]
      have hmo : ∀ x, DftEvent.opn x ∉ e :: mid := by
        intro x hm
        have := List.mem_map_of_mem (f := DftEvent.toStep) hm
        rw [hmid] at this
        have := List.eq_of_mem_replicate this
        simp [DftEvent.toStep] at this
      have hmem : ∀ x, DftEvent.opn x ∈ e :: (mid ++ rest) ↔ DftEvent.opn x ∈ rest := by
        intro x
        have h5 : DftEvent.opn x ∈ e :: (mid ++ rest) ↔ DftEvent.opn x ∈ (e :: mid) ∨ .opn x ∈ rest := by
          simp [or_assoc]
        rw [h5]; simp [hmo x]
      refine ⟨w2, a2, b2, E2, hmono A2 hl, ?_⟩
      rw [hfold]
      simp only [hmem]
      exact h4

/-! ### The invariant -/

/-- The subtree of `m` is being built, by the builder `b` with root `m`, among the children `pl` of `p` in the tree
`T`; everything else is as in `a0`. -/
structure Graft (a0 : Forest α) (m p : NodeId) (pl : List NodeId) (T : TreeId) (w : World α) (a : Forest α) (b : Builder)
    (i : Nat) : Prop where
  reach : ReachW w
  shows : Shows w a
  data : ∀ x, a0.data x ≠ none → a.data x = a0.data x
  borrowed : ∀ x, a0.data x ≠ none → a.borrowed x = a0.borrowed x
  tree : ∀ x, a0.data x ≠ none → a.tree x = a0.tree x
  children : ∀ x, a0.data x ≠ none → x ≠ p → a.children x = a0.children x
  place : a.children p = pl
  newB : ∀ x, a.data x ≠ none → a0.data x = none → a.borrowed x = false
  newT : ∀ x, a.data x ≠ none → a0.data x = none → a.tree x = some T
  down : ∀ x y, a0.data x = none → y ∈ a.children x → a0.data y = none
  trees : a.trees = a0.trees
  grantTok : a.grantTok = a0.grantTok
  prohTok : a.prohTok = a0.prohTok
  held : ∀ k x, a.held k x = a0.held k x + Builder.share [b] k x
  last : ∀ x, a.data x ≠ none → a0.data x = none → LastRight w.heap a.children x
  few : a.newNode ≤ a0.newNode + i

/-- How far the builder is: `m` is open, or it is closed and the cursor is its parent. -/
inductive Graft.At (a : Forest α) (m p : NodeId) (E : List (Option α)) : Builder → Prop
  | opened {x : NodeId} {ks : List (RTree NodeId)} {fs : List (Frame NodeId)} : OpenF a m E x ks fs →
      Graft.At a m p E ⟨some m, some x⟩
  | closed {s : RTree NodeId} : ClosedF a m E s → Graft.At a m p E ⟨some m, some p⟩

theorem Graft.share (G : Graft a0 m p pl T w a b i) (k : Kind) (x : NodeId) : Builder.share [b] k x ≤ a.held k x := by
  rw [G.held]; omega

theorem Graft.spare (G : Graft a0 m p pl T w a b i) (S0 : Shows w0 a0) (R : w0.RoomFor i) : w.Spare := by
  intro t
  have h1 := R t
  have h2 := G.few
  rw [← G.shows.grantTok, ← G.shows.prohTok, G.grantTok, G.prohTok, S0.grantTok, S0.prohTok]
  rw [G.shows.newNode, S0.newNode] at h2
  replace h2 : (w.heap.nNode : Nat) ≤ (w0.heap.nNode : Nat) + i := h2
  omega

theorem Graft.mono {j : Nat} (G : Graft a0 m p pl T w a b i) (h : i ≤ j) : Graft a0 m p pl T w a b j :=
  { G with few := Nat.le_trans G.few (Nat.add_le_add_left h _) }

theorem Graft.new_below (G : Graft a0 m p pl T w a b i) (hx : a0.data x = none) (h : Desc a.children x y) :
    a0.data y = none := by
  induction h with
  | refl => exact hx
  | step _ hm ih => exact G.down _ _ ih hm

theorem OpenF.below (O : OpenF a m E x ks fs) (hy : y ∈ nodesF ((x, ks) :: fs)) : Desc a.children m y := by
  have := O.zip.sub.mem_nodes_iff y
  rw [zipUp_nodes] at this
  exact this.1 hy

theorem Graft.owned (G : Graft a0 m p pl T w a b i) (F : Graft.At a m p E b) : b.Owned w := by
  refine Builder.owned_of (fun k n => by rw [← G.shows.held]; exact G.share k n) fun h => ?_
  cases F <;> cases h

theorem Graft.shift {c q : NodeId} (G : Graft a0 m p pl T w a ⟨some m, some c⟩ i) (hr' : ReachW w') (S' : Shows w' (a.shift c q))
    (C : Calms w w')
    (hh : ∀ k n, (a.shift c q).held k n + Builder.share [⟨some m, some c⟩] k n = a.held k n + Builder.share [⟨some m, some q⟩] k n) :
    Graft a0 m p pl T w' (a.shift c q) ⟨some m, some q⟩ i where
  reach := hr'
  shows := S'
  data := G.data
  borrowed := G.borrowed
  tree := G.tree
  children := G.children
  place := G.place
  newB := G.newB
  newT := G.newT
  down := G.down
  trees := G.trees
  grantTok := G.grantTok
  prohTok := G.prohTok
  held k x := by
    have h1 := hh k x
    have h2 := G.held k x
    omega
  last x h1 h2 := C _ _ G.shows.children S'.children x (S'.alive.2 h1) fun ha => G.last x (G.shows.alive.1 ha) h2
  few := G.few

/-- One event. -/
theorem Graft.push (G : Graft a0 m p pl T w a b i) (F : Graft.At a m p E b) (S0 : Shows w0 a0) (R : w0.RoomFor i)
    (hm0 : a0.data m = none) (hmp : m ∈ pl) (hp0 : a0.data p ≠ none) (e : Event α)
    (hg : ∃ j t, Describes (E ++ Event.expand [e]) j t) :
    ∃ w' a' b', Builder.push w b e = .ok (w', b', .ok ()) ∧ Graft a0 m p pl T w' a' b' (i + 1) ∧
      Graft.At a' m p (E ++ Event.expand [e]) b' := by
  have S := G.shows
  have dead : a.data a.newNode = none := S.dead_new
  have hne : ∀ y, a.data y ≠ none → y ≠ a.newNode := by rintro y hy rfl; exact hy dead
  have hlive : ∀ x, a0.data x ≠ none → a.data x ≠ none := fun x hx => by rw [G.data x hx]; exact hx
  have nochild : a.children a.newNode = [] := by
    have := S.children.fresh_not_alive
    rw [← S.newNode] at this
    exact S.children.dead _ this
  obtain ⟨w1, b1, res, a1, e1, hr1, S1, hb, C1⟩ := G.reach.push_builds (e := e) S (G.spare S0 R) (G.owned F) (by
    rintro c d hc rfl
    cases F with
    | opened O =>
      cases hc
      exact G.last c (O.alive c (by simp [nodesF])) (G.new_below hm0 (O.below (by simp [nodesF])))
    | closed C =>
      obtain ⟨u, hu, -⟩ := C.describes S
      obtain ⟨j, t, h⟩ := hg
      have := hu.complete h
      simp [Event.expand] at this)
  have hh := (hb.held G.share).1
  obtain ⟨j, t, hg⟩ := hg
  cases F with
  | closed C =>
    obtain ⟨u, hu, -⟩ := C.describes S
    have hx := hu.complete hg
    cases e with
    | opn d => simp [Event.expand] at hx
    | close c =>
      have : c = 0 := by simpa [Event.expand] using hx
      subst this
      cases hb with
      | nothing =>
        refine ⟨w1, a, _, e1, ?_, by simpa [Event.expand] using Graft.At.closed C⟩
        exact { (G.mono (Nat.le_succ i)) with
          reach := hr1
          shows := S1
          last := fun x h1 h2 => C1 _ _ S.children S1.children x (S1.alive.2 h1) fun ha => G.last x (S.alive.1 ha) h2 }
  | @opened x ks fs O =>
    obtain ⟨u, hu, -⟩ := O.describes S
    cases hb with
    | nothing =>
      refine ⟨w1, a, _, e1, ?_, by simpa [Event.expand] using Graft.At.opened O⟩
      exact { (G.mono (Nat.le_succ i)) with
        reach := hr1
        shows := S1
        last := fun x h1 h2 => C1 _ _ S.children S1.children x (S1.alive.2 h1) fun ha => G.last x (S.alive.1 ha) h2 }
    | @child _ _ t1 d htr =>
      have hx0 : a0.data x = none := G.new_below hm0 (O.below (by simp [nodesF]))
      have hxa : a.data x ≠ none := O.alive x (by simp [nodesF])
      have hxn : x ≠ a.newNode := hne x hxa
      rw [G.newT x hxa hx0] at htr; cases htr
      have hnd := O.nodup
      simp only [nodesF, List.nodup_append, List.nodup_cons, List.mem_cons] at hnd
      obtain ⟨nd1, ⟨nd2, nd3⟩, nd4⟩ := hnd
      have hpx : p ≠ x := by rintro rfl; exact hp0 hx0
      refine ⟨w1, ((a.addNode d T).setChildren x (a.children x ++ [a.newNode])).shift x a.newNode, ⟨some m, some a.newNode⟩,
        e1, ?_, ?_⟩
      · refine ⟨hr1, S1, fun z hz => ?_, fun z hz => ?_, fun z hz => ?_, fun z hz hzp => ?_, ?_, fun z h1 h2 => ?_,
          fun z h1 h2 => ?_, fun z y h1 h2 => ?_, G.trees, G.grantTok, G.prohTok, fun k z => ?_,
          fun z h1 h2 => C1 _ _ S.children S1.children z (S1.alive.2 h1) fun ha => G.last z (S.alive.1 ha) h2,
          Nat.succ_le_succ G.few⟩
        · rw [← G.data z hz]; exact upd_ne _ _ (hne z (hlive z hz))
        · rw [← G.borrowed z hz]; exact upd_ne _ _ (hne z (hlive z hz))
        · rw [← G.tree z hz]; exact upd_ne _ _ (hne z (hlive z hz))
        · rw [← G.children z hz hzp]
          refine upd_ne _ _ ?_
          rintro rfl; exact hz hx0
        · rw [← G.place]; exact upd_ne _ _ hpx
        · show upd a.borrowed a.newNode false z = false
          by_cases hz : z = a.newNode
          · subst hz; exact upd_same ..
          · replace h1 : upd a.data a.newNode (some d) z ≠ none := h1
            rw [upd_ne _ _ hz] at h1 ⊢; exact G.newB z h1 h2
        · show upd a.tree a.newNode _ z = _
          by_cases hz : z = a.newNode
          · subst hz; exact upd_same ..
          · replace h1 : upd a.data a.newNode (some d) z ≠ none := h1
            rw [upd_ne _ _ hz] at h1 ⊢; exact G.newT z h1 h2
        · replace h2 : y ∈ upd a.children x (a.children x ++ [a.newNode]) z := h2
          by_cases hz : z = x
          · subst hz
            rw [upd_same, List.mem_append] at h2
            rcases h2 with h2 | h2
            · exact G.down _ _ h1 h2
            · obtain rfl : y = a.newNode := by simpa using h2
              apply Classical.byContradiction
              intro hc
              exact hlive _ hc dead
          · rw [upd_ne _ _ hz] at h2; exact G.down _ _ h1 h2
        · have h1 := hh k z
          have h2 := G.held k z
          omega
      · refine .opened (ks := []) (fs := (x, ks) :: fs) ⟨⟨?_, trivial, ?_, ?_, ?_⟩, O.bottom, ?_, ?_, ?_⟩
        · show upd a.children x _ a.newNode = _
          rw [upd_ne _ _ (Ne.symm hxn), nochild]; rfl
        · show upd a.children x _ x = _
          rw [upd_same, O.ok.1]; simp
        · refine HierL.congr ?_ O.ok.2.1
          intro z hz
          show upd a.children x _ z = _
          rw [upd_ne]; rintro rfl; exact nd2 hz
        · refine O.ok.2.2.congr ?_
          intro z hz
          show upd a.children x _ z = _
          rw [upd_ne]; rintro rfl; exact nd4 z hz z (.inl rfl) rfl
        · rw [nodesF, nodesL, List.nodup_append]
          refine ⟨O.nodup, by simp, ?_⟩
          intro z hz z' hz'
          simp only [List.mem_singleton] at hz'
          subst hz'
          exact hne z (O.alive z hz)
        · intro z hz
          rw [nodesF, nodesL, List.mem_append] at hz
          show upd a.data a.newNode (some d) z ≠ none
          rcases hz with hz | hz
          · rw [upd_ne _ _ (hne z (O.alive z hz))]; exact O.alive z hz
          · simp only [List.mem_singleton] at hz; subst hz; rw [upd_same]; simp
        · rw [enc, stepsL_nil]
          refine Matches.append (O.dat.congr ?_) (.some ?_)
          · intro z hz
            show upd a.data a.newNode (some d) z = _
            rw [upd_ne _ _ (hne z (O.alive z (mem_enc.1 hz)))]
          · show upd a.data a.newNode (some d) a.newNode = _
            rw [upd_same]
    | @up _ _ q q' k hc hq =>
      have he : E ++ Event.expand [.close (k + 1)] = E ++ List.replicate k none ++ [none] := by
        simp [Event.expand, List.replicate_succ']
      obtain ⟨-, ks1, fs1, O1, -⟩ := O.climb S.children hc
      refine ⟨w1, _, _, e1, (G.shift hr1 S1 C1 hh).mono (Nat.le_succ i), ?_⟩
      rw [he]
      cases fs1 with
      | nil =>
        obtain rfl : q = m := O1.bottom
        obtain rfl := S.children.unique_parent hq (by rw [G.place]; exact hmp)
        exact .closed ⟨O1.zip.sub, O1.zip.alive, O1.zip.dat⟩
      | cons g fs1 =>
        obtain ⟨y, ks2⟩ := g
        obtain ⟨-, hy, O2⟩ := O1.pop
        obtain rfl := S.children.unique_parent hq hy
        exact .opened (O2.congr (fun _ _ => rfl) (fun _ _ => rfl))
    | @out _ _ q k hc hq =>
      obtain ⟨-, ks1, fs1, O1, -⟩ := O.climb S.children hc
      cases fs1 with
      | cons g fs1 =>
        obtain ⟨y, ks2⟩ := g
        exact absurd O1.pop.2.1 (hq y)
      | nil =>
        obtain rfl : q = m := O1.bottom
        exact absurd (by rw [G.place]; exact hmp) (hq p)
    | @tooFar _ _ q j' k hc hj hq =>
      simp only [Event.expand, List.append_nil] at hg
      have h3 := (hu.depth hg).1
      obtain ⟨h1, ks1, fs1, O1, h2⟩ := O.climb S.children hc
      cases fs1 with
      | nil => simp at h2; omega
      | cons g fs1 =>
        obtain ⟨y, ks2⟩ := g
        obtain ⟨g1, g2, -⟩ := O1.pop
        rcases hq with hq | hq
        · exact absurd hq g1
        · exact absurd g2 (hq y)

/-! ### Start and end -/

/-- Dropping a handle destroys nothing while there is a hot one in the same tree. -/
theorem Forest.take_calm {k : Kind} {z : NodeId} (h : a.sweep = a) (hz : 0 < (a.take k x).held .hot z) (ht : a.tree z = a.tree x) :
    (a.take k x).sweep = a.take k x := by
  refine Forest.sweep_same h rfl rfl rfl rfl rfl ?_
  rintro t (g | ⟨k', q, g, e⟩)
  · exact .inl g
  · by_cases hk : k' = k ∧ q = x
    · obtain ⟨rfl, rfl⟩ := hk
      exact .inr ⟨.hot, z, hz, ht.trans e⟩
    · exact .inr ⟨k', q, by simpa only [Forest.take, if_neg hk] using g, e⟩

theorem Graft.start {dest : InsertAs NodeId} {l1 l2 : List NodeId} (hr : ReachW w) (S : Shows w a) (R : w.RoomFor 1)
    (hk : 0 < a.held .hot dest.anchor) (hT : a.tree dest.anchor = some T) (hd : DestSplit a.children dest p l1 l2)
    (hl : l1 = [] ∨ l2 = [] → LastRight w.heap a.children p) (d : α) :
    ∃ w1 w2 a1 a2, w.exec (.create .hot dest.anchor d dest.toAdoptAs) = .ok (w1, .node (some a.newNode)) ∧
      Shows w1 a1 ∧ (∀ x, a.data x ≠ none → a1.data x = a.data x ∧ (x ≠ p → a1.children x = a.children x)) ∧
      Builder.withRoot w1 a.newNode = .ok (w2, ⟨some a.newNode, some a.newNode⟩) ∧
      Graft a a.newNode p (l1 ++ a.newNode :: l2) T w2 a2 ⟨some a.newNode, some a.newNode⟩ 1 ∧
      Graft.At a2 a.newNode p [some d] ⟨some a.newNode, some a.newNode⟩ := by
  have R0 : a.Roomy := R.roomy S (Nat.le_add_right _ _) rfl rfl
  have dead : a.data a.newNode = none := S.dead_new
  have L := S.children.fresh_not_alive
  rw [← S.newNode] at L
  have nochild : a.children a.newNode = [] := S.children.dead _ L
  have noparent : ∀ q, a.newNode ∉ a.children q := by
    intro q hq
    have := S.children.alive_of_mem hq
    rw [L] at this; cases this
  have hne : ∀ x, a.data x ≠ none → x ≠ a.newNode := by rintro x hx rfl; exact hx dead
  have hpa : a.data p ≠ none := by
    have h1 := hr.held_live S hk
    rcases dest_anchor hd with h | h
    · rw [← h]; exact h1
    · refine S.alive.1 ?_
      cases hq : w.heap.alive p with
      | true => rfl
      | false => rw [S.children.dead p hq] at h; cases h
  have hpn := hne p hpa
  have hat : dest.toAdoptAs.at dest.anchor = dest := by cases dest <;> rfl
  obtain ⟨w1, e1, hr1, S1, C1⟩ := hr.playC (op := .create .hot dest.anchor d dest.toAdoptAs) S R0 hk trivial
    (by
      rintro q ⟨m1, m2, hs, he⟩
      rw [hat] at hs
      obtain ⟨rfl, rfl, rfl⟩ := (FShape.lists S.children).dest hs hd
      exact hl he)
    (.create (au := .hot) (t := T) trivial hT (by rw [hat]; exact hd)) (fun _ _ h => h)
    (by
      intro q h1 h2
      replace h1 : upd a.data a.newNode (some d) q ≠ none := h1
      by_cases hq : q = a.newNode
      · subst hq
        show upd a.children p _ a.newNode = []
        rw [upd_ne _ _ (Ne.symm hpn)]; exact nochild
      · rw [upd_ne _ _ hq] at h1; exact absurd h2 h1)
  have R1 : Forest.Roomy (((a.addNode d T).setChildren p (l1 ++ a.newNode :: l2)).give Kind.hot a.newNode) :=
    R.roomy S (Nat.le_refl _) rfl rfl
  obtain ⟨w2, e2, hr2, S2, C2⟩ := hr1.playC (op := .plainOf .hot a.newNode) S1 R1
    ⟨by decide, by simp [Forest.give, Auth.kind]⟩ trivial (fun _ h => h.elim) (.plainOf _ _) (fun _ _ h => h)
    (fun q h1 h2 => absurd h2 h1)
  refine ⟨w1, w2, _, _, e1, S1, fun x hx => ⟨upd_ne _ _ (hne x hx), fun hxp => upd_ne _ _ hxp⟩, ?_,
    ⟨hr2, S2, fun x hx => upd_ne _ _ (hne x hx), fun x hx => upd_ne _ _ (hne x hx), fun x hx => upd_ne _ _ (hne x hx),
      fun x hx hxp => upd_ne _ _ hxp, upd_same .., fun x h1 h2 => ?_, fun x h1 h2 => ?_, fun x y h1 h2 => ?_, rfl, rfl, rfl,
      fun k x => ?_, fun x h1 h2 => ?_, Nat.le_refl _⟩, ?_⟩
  · simp only [Builder.withRoot, e2, bind, Except.bind, pure, Except.pure]
  · show upd a.borrowed a.newNode false x = false
    by_cases hx : x = a.newNode
    · subst hx; exact upd_same ..
    · replace h1 : upd a.data a.newNode (some d) x ≠ none := h1
      rw [upd_ne _ _ hx] at h1; exact absurd h2 h1
  · show upd a.tree a.newNode _ x = _
    by_cases hx : x = a.newNode
    · subst hx; exact upd_same ..
    · replace h1 : upd a.data a.newNode (some d) x ≠ none := h1
      rw [upd_ne _ _ hx] at h1; exact absurd h2 h1
  · replace h2 : y ∈ upd a.children p (l1 ++ a.newNode :: l2) x := h2
    have hxp : x ≠ p := by rintro rfl; exact hpa h1
    rw [upd_ne _ _ hxp] at h2
    have : a.children x = [] := S.children.dead x (by
      cases hq : w.heap.alive x with
      | true => exact absurd h1 (S.alive.1 hq)
      | false => rfl)
    rw [this] at h2; cases h2
  · simp only [Forest.give, Forest.setChildren, Forest.addNode, Auth.kind]
    cases k with
    | hot => by_cases hx : x = a.newNode <;> simp [Builder.share, List.countP_cons, hx, Ne.symm]
    | plain => by_cases hx : x = a.newNode <;> simp [Builder.share, List.countP_cons, hx, Ne.symm]
    | frozen => simp [Builder.share]
  · refine C2 _ _ S1.children S2.children x (S2.alive.2 h1) fun ha1 => ?_
    exact C1 _ _ S.children S1.children x ha1 fun ha => absurd h2 (S.alive.1 ha)
  · refine .opened (ks := []) (fs := []) ⟨⟨?_, trivial, trivial⟩, rfl, by simp [nodesF, nodesL], ?_, ?_⟩
    · show upd a.children p _ a.newNode = []
      rw [upd_ne _ _ (Ne.symm hpn)]; exact nochild
    · intro y hy
      simp only [nodesF, nodesL, List.nil_append, List.mem_singleton] at hy
      subst hy
      show upd a.data a.newNode (some d) a.newNode ≠ none
      rw [upd_same]; simp
    · refine Matches.some ?_
      show upd a.data a.newNode (some d) a.newNode = _
      rw [upd_same]

/-- What has been built. -/
theorem Graft.result {s : RTree NodeId} (G : Graft a0 m p pl T w a b i) (C : ClosedF a m E s) (hr0 : ReachW w0)
    (S0 : Shows w0 a0) (hm0 : a0.data m = none) (hr' : ReachW w') (S' : Shows w' a') (h1 : a'.data = a.data)
    (h2 : a'.borrowed = a.borrowed) (h3 : a'.tree = a.tree) (h4 : a'.children = a.children) (h5 : a'.trees = a.trees)
    (h6 : a'.grantTok = a.grantTok) (h7 : a'.prohTok = a.prohTok) :
    ∃ u, Describes E 0 u ∧ a'.children p = pl ∧ NewSubtree w0 w' a'.children T m u ∧
      Untouched w0 w' a0.children a'.children (some p) := by
  obtain ⟨u, hu, hd⟩ := C.describes G.shows
  have hnew : ∀ x ∈ s.nodes, a0.data x = none := fun x hx => G.new_below hm0 ((C.sub.mem_nodes_iff x).1 hx)
  have live' : ∀ x, w0.heap.alive x = true → w'.heap.alive x = true := fun x hx =>
    S'.alive.2 (by rw [h1, G.data x (S0.alive.1 hx)]; exact S0.alive.1 hx)
  refine ⟨u, hu, by rw [h4]; exact G.place, ⟨s, ?_, ?_, fun x hx => ⟨?_, ?_, ?_, ?_⟩⟩, ⟨live', fun x hx => ?_, fun x hx => ?_,
    fun x hx => ?_, fun x hx hxp => ?_, ?_, ?_, ?_⟩⟩
  · rw [h4]; exact C.sub
  · have : w'.heap.data = w.heap.data := by rw [← S'.data, ← G.shows.data]; exact h1
    rw [HasData, this]; exact hd
  · cases h : w0.heap.alive x with
    | false => rfl
    | true => exact absurd (hnew x hx) (S0.alive.1 h)
  · exact S'.alive.2 (by rw [h1]; exact C.alive x hx)
  · have h8 : a'.data x ≠ none := by rw [h1]; exact C.alive x hx
    have := G.newB x (C.alive x hx) (hnew x hx)
    rw [← h2, S'.borrowed, S'.alive.2 h8] at this
    simpa using this
  · have h8 : a'.data x ≠ none := by rw [h1]; exact C.alive x hx
    exact (hr'.nodeTree_live S' h8).2 (by rw [h3]; exact G.newT x (C.alive x hx) (hnew x hx))
  · rw [← S'.data, ← S0.data, h1]; exact G.data x (S0.alive.1 hx)
  · have g1 := G.borrowed x (S0.alive.1 hx)
    rw [← h2, S'.borrowed, S0.borrowed, hx, live' x hx] at g1
    exact g1
  · have hd0 := S0.alive.1 hx
    have hd' : a'.data x ≠ none := by rw [h1, G.data x hd0]; exact hd0
    obtain ⟨t, e, -⟩ := hr0.tree_live S0 hd0
    rw [(hr0.nodeTree_live S0 hd0).2 e, (hr'.nodeTree_live S' hd').2 (by rw [h3, G.tree x hd0]; exact e)]
  · rw [h4]; exact G.children x (S0.alive.1 hx) (by rintro rfl; exact hxp rfl)
  · rw [← S'.trees, ← S0.trees, h5]; exact G.trees
  · rw [← S'.grantTok, ← S0.grantTok, h6]; exact G.grantTok
  · rw [← S'.prohTok, ← S0.prohTok, h7]; exact G.prohTok

theorem Graft.At.sub (F : Graft.At a m p E b) : b.root = some m ∧ (∃ c, b.cur = some c) ∧ ∃ E' s, ClosedF a m E' s := by
  cases F with
  | opened O => exact ⟨rfl, ⟨_, rfl⟩, _, _, O.zip⟩
  | closed C => exact ⟨rfl, ⟨_, rfl⟩, _, _, C⟩

/-- The cursor is in the tree. -/
theorem Graft.cur_tree {c : NodeId} (G : Graft a0 m p pl T w a b i) (F : Graft.At a m p E b) (hm0 : a0.data m = none)
    (hp : a0.tree p = some T) (hp0 : a0.data p ≠ none) (hc : b.cur = some c) : a.tree c = some T := by
  cases F with
  | opened O =>
    obtain rfl := Option.some.inj hc
    exact G.newT _ (O.alive _ (by simp [nodesF])) (G.new_below hm0 (O.below (by simp [nodesF])))
  | closed C =>
    obtain rfl := Option.some.inj hc
    rw [G.tree _ hp0]; exact hp

/-- The builder is dropped. -/
theorem Graft.dropAll {z : NodeId} (G : Graft a0 m p pl T w a b i) (F : Graft.At a m p E b) (hr0 : ReachW w0) (S0 : Shows w0 a0)
    (R : w0.RoomFor i) (hm0 : a0.data m = none) (hp : a0.tree p = some T) (hp0 : a0.data p ≠ none)
    (hz : 0 < a0.held .hot z) (hzT : a0.tree z = some T) :
    ∃ w' a' v, Builder.dropAll w b = .ok w' ∧ ReachW w' ∧ Shows w' a' ∧ a'.children p = pl ∧
      NewSubtree w0 w' a'.children T m v ∧ (∀ k x, w'.held k x = w0.held k x) ∧
      Untouched w0 w' a0.children a'.children (some p) := by
  obtain ⟨w', e, hr', S'⟩ := G.reach.drop_builds G.shows (G.spare S0 R) (G.owned F)
  obtain ⟨h1, ⟨c, h2⟩, E', s, C⟩ := F.sub
  have hc := G.cur_tree F hm0 hp hp0 h2
  have hma : a.data m ≠ none := C.alive m ((C.sub.mem_nodes_iff m).2 (.refl _))
  have hmT := G.newT m hma hm0
  have hza : a.tree z = some T := by rw [G.tree z (hr0.held_live S0 hz)]; exact hzT
  have hheld : ∀ k x, a.held k x = a0.held k x + Builder.share [⟨some m, some c⟩] k x := by
    intro k x
    have : b = ⟨some m, some c⟩ := by cases b; simp_all
    rw [← this]; exact G.held k x
  have e1 : (a.take .plain m).sweep = a.take .plain m := by
    refine Forest.take_calm (G.reach.swept G.shows) (z := z) ?_ (by rw [hza, hmT])
    simp only [Forest.take]
    have := hheld .hot z
    simp; omega
  have e2 : ((a.take .plain m).take .hot c).sweep = (a.take .plain m).take .hot c := by
    refine Forest.take_calm e1 (z := z) ?_ (by show a.tree z = a.tree c; rw [hza, hc])
    simp only [Forest.take]
    have := hheld .hot z
    simp [Builder.share, List.countP_cons] at this
    simp
    by_cases hzc : z = c
    · subst hzc; simp at this ⊢; omega
    · simp [hzc]; omega
  rw [h1, h2] at S'
  have e3 : (a.dropPlain (some m)).dropHot (some c) = (a.take .plain m).take .hot c := by
    show ((a.take .plain m).sweep.take .hot c).sweep = _
    rw [e1, e2]
  rw [e3] at S'
  obtain ⟨v, -, g1, g2, g3⟩ := G.result C hr0 S0 hm0 hr' S' rfl rfl rfl rfl rfl rfl rfl
  refine ⟨w', _, v, e, hr', S', g1, g2, fun k x => ?_, g3⟩
  rw [← S'.held, ← S0.held]
  have := hheld k x
  simp only [Forest.take]
  cases k with
  | hot =>
    simp [Builder.share, List.countP_cons] at this
    by_cases hx : x = c
    · subst hx; simp at this ⊢; omega
    · have : ¬ c = x := fun h => hx h.symm
      simp_all
  | plain =>
    simp [Builder.share, List.countP_cons] at this
    by_cases hx : x = m
    · subst hx; simp at this ⊢; omega
    · have : ¬ m = x := fun h => hx h.symm
      simp_all
  | frozen => simpa [Builder.share] using this

/-- The builder is finished, and the root is bundled again. -/
theorem Graft.finish {z : NodeId} {u : RTree α} (G : Graft a0 m p pl T w a b i) (F : Graft.At a m p u.steps b) (hr0 : ReachW w0)
    (S0 : Shows w0 a0) (R : w0.RoomFor i) (hm0 : a0.data m = none) (hp : a0.tree p = some T) (hp0 : a0.data p ≠ none)
    (hz : 0 < a0.held .hot z) (hzT : a0.tree z = some T) :
    ∃ w1 w' a', Builder.finish w b = .ok (w1, .ok m) ∧ w1.exec (.bundle .hot m) = .ok (w', .unit) ∧ ReachW w' ∧
      Shows w' a' ∧ a'.children p = pl ∧ NewSubtree w0 w' a'.children T m u ∧ GotHot w0 w' m ∧
      Untouched w0 w' a0.children a'.children (some p) := by
  have hu0 : Describes u.steps 0 u := by simp [Describes]
  obtain ⟨w1, e1, hr1, S1⟩ := G.reach.finish_builds G.shows (G.spare S0 R) (G.owned F)
  cases F with
  | opened O =>
    obtain ⟨v, hv, -⟩ := O.describes G.shows
    have := (hv.unique hu0).1
    omega
  | @closed s C =>
    have hma : a.data m ≠ none := C.alive m ((C.sub.mem_nodes_iff m).2 (.refl _))
    have hmT := G.newT m hma hm0
    have hpT : a.tree p = some T := by rw [G.tree p hp0]; exact hp
    have hza : a.tree z = some T := by rw [G.tree z (hr0.held_live S0 hz)]; exact hzT
    have e2 : a.dropHot (some p) = a.take .hot p := by
      refine Forest.take_sweep (G.reach.swept G.shows) (r := m) ?_ (by rw [hmT, hpT])
      rw [G.held]; simp [Builder.share]
    have S1 : Shows w1 (a.take .hot p) := by rw [← e2]; exact S1
    have hheld : ∀ k x, (a.take .hot p).held k x = a0.held k x + if k = .plain ∧ x = m then 1 else 0 := by
      intro k x
      have := G.held k x
      simp only [Forest.take]
      cases k with
      | hot =>
        simp [Builder.share, List.countP_cons] at this
        by_cases hx : x = p
        · subst hx; simp at this ⊢; omega
        · have : ¬ p = x := fun h => hx h.symm
          simp_all
      | plain =>
        simp [Builder.share, List.countP_cons] at this
        by_cases hx : x = m
        · subst hx; simp at this ⊢; omega
        · have : ¬ m = x := fun h => hx h.symm
          simp_all
      | frozen => simpa [Builder.share] using this
    have R1 : Forest.Roomy (a.take .hot p) := R.roomy S0 G.few G.grantTok G.prohTok
    have free : ¬ (a.take .hot p).Refused T true := by
      have hg : w1.GrantAlive T := by
        refine .inr ⟨z, ?_, ?_⟩
        · rw [← S1.held, hheld]; omega
        · exact (hr1.nodeTree_live S1 (hr1.held_live S1 (q := .hot) (by rw [hheld]; omega))).2 hza
      rintro (h | ⟨q, h1, h2⟩)
      · exact C37_exclusive hr1.any T ⟨hg, .inl (by rw [← S1.prohTok]; exact h)⟩
      · refine C37_exclusive hr1.any T ⟨hg, .inr ⟨q, by rw [← S1.held]; exact h1, ?_⟩⟩
        exact (hr1.nodeTree_live S1 (hr1.held_live S1 h1)).2 h2
    obtain ⟨w2, e3, hr2, S2⟩ := hr1.play (op := .bundle .hot m) S1 R1 ⟨by decide, by rw [hheld]; simp⟩ trivial
      (fun _ h => h.elim) (.bundle (t := T) (b := true) hmT rfl free)
    obtain ⟨v, hv, g1, g2, g3⟩ := G.result C hr0 S0 hm0 hr2 S2 rfl rfl rfl rfl rfl rfl rfl
    obtain ⟨-, rfl⟩ := hv.unique hu0
    refine ⟨w1, w2, _, e1, e3, hr2, S2, g1, g2, fun k x => ?_, g3⟩
    rw [← S2.held, ← S0.held]
    have := hheld k x
    show (((a.take .hot p).take .plain m).give .hot m).held k x = _
    simp only [Forest.give]
    rw [show ((a.take .hot p).take .plain m).held k x = if k = .plain ∧ x = m then (a.take .hot p).held k x - 1 else
      (a.take .hot p).held k x from rfl, this]
    cases k <;> by_cases hx : x = m <;> simp [hx]

/-- The whole of `try_clone_insert_subtree` for a place outside the source. -/
theorem Graft.run {dest : InsertAs NodeId} {l1 l2 : List NodeId} {t : RTree NodeId} {u : RTree α} {f : Nat} (hr : ReachW w)
    (S : Shows w a) (hk : 0 < w.held .hot dest.anchor) (hT : w.heap.nodeTree dest.anchor = .ok T)
    (hd : DestSplit a.children dest p l1 l2) (hl : l1 = [] ∨ l2 = [] → LastRight w.heap a.children p)
    (ha : w.heap.alive n = true) (ht : SubtreeAt a.children n t) (hu : HasData w.heap t u)
    (hnp : ¬ Desc a.children n p) (hs : 2 * t.size ≤ usizeMax) (hf : 2 * t.size < f) (R : w.RoomFor (2 * t.size))
    (hn : w.heap.mutB n = false) :
    ((∀ x ∈ t.nodes, w.heap.mutB x = false) ∧ ∃ w' a' m, Builder.tryCloneInsert f w n dest = .ok (w', .ok m) ∧ ReachW w' ∧
      Shows w' a' ∧ a'.children p = l1 ++ m :: l2 ∧ NewSubtree w w' a'.children T m u ∧ GotHot w w' m ∧
      Untouched w w' a.children a'.children (some p)) ∨
    ((∃ x ∈ t.nodes, w.heap.mutB x = true) ∧ ∃ w' a' m v, Builder.tryCloneInsert f w n dest = .ok (w', .error .borrowNodeData) ∧
      ReachW w' ∧ Shows w' a' ∧ a'.children p = l1 ++ m :: l2 ∧ NewSubtree w w' a'.children T m v ∧
      (∀ k x, w'.held k x = w.held k x) ∧ Untouched w w' a.children a'.children (some p)) := by
  obtain ⟨d, hdn⟩ := Option.isSome_iff_exists.1 (show (w.heap.data n).isSome from ha)
  have hk' : 0 < a.held .hot dest.anchor := by rw [S.held]; exact hk
  have hT' : a.tree dest.anchor = some T := (hr.nodeTree_live S (hr.held_live S hk')).1 hT
  have hpT : a.tree p = some T := by rw [(hr.tidy S).dest hd]; exact hT'
  have hp0 : a.data p ≠ none := by
    intro h
    have h1 := S.tree p
    have h2 : w.heap.alive p = false := by
      cases hq : w.heap.alive p with
      | true => exact absurd h (S.alive.1 hq)
      | false => rfl
    rw [h2, hpT] at h1; cases h1
  have hm0 : a.data a.newNode = none := S.dead_new
  have hlen : t.events.length = 2 * t.size := events_length t
  have hmem : n ∈ t.nodes := (ht.mem_nodes_iff n).2 (.refl _)
  have hal : ∀ x ∈ t.nodes, a.data x ≠ none := fun x hx =>
    S.alive.1 (S.children.desc_alive ha ((ht.mem_nodes_iff x).1 hx))
  have hxp : ∀ x ∈ t.nodes, x ≠ p := by
    rintro x hx rfl; exact hnp ((ht.mem_nodes_iff x).1 hx)
  obtain ⟨l, hev⟩ : ∃ l, t.events = .opn n :: l := by
    cases t with
    | node v cs =>
      obtain rfl : v = n := ht.1
      exact ⟨_, rfl⟩
  have hl1 : 1 + l.length = 2 * t.size := by
    rw [← hlen, hev]; simp only [List.length_cons]; omega
  have R1 : w.RoomFor 1 := fun t' => by have := R t'; omega
  obtain ⟨w1, w2, a1, a2, e1, S1, same1, e2, G, F⟩ := Graft.start hr S R1 hk' hT' hd hl d
  have ht1 : SubtreeAt a1.children n t := ⟨ht.1, ht.2.congr fun x hx => (same1 x (hal x hx)).2 (hxp x hx)⟩
  have hn1 : w1.heap.alive n = true := S1.alive.2 (by rw [(same1 n (hal n hmem)).1]; exact hal n hmem)
  have hy := S1.children.dft_yields hn1 ht1
  rw [Dft.start_rest ht.1, hev] at hy
  have h2 := ht1.size_le S1.children hn1
  unfold RTree.size at h2
  have h3 : (DftEvent.opn n :: l).length = 2 * t.nodes.length := by rw [← hev]; exact hlen
  have e3 : w1.heap.serNext (Dft.start n) = .ok (some ((w1.heap.borrowData n).map .opn), Dft.rest n l) := by
    rw [Dft.start_rest ht.1, hev]
    rcases serNext_rest hy (by rw [h3]; omega) (by rw [h3]; exact hs) with ⟨v, hv, h⟩ | ⟨c, mid, rest, hv, h, hmid⟩
    · cases hv; exact h
    · cases c with
      | zero => simp at hmid
      | succ c => simp [DftEvent.toStep, List.replicate_succ] at hmid
  have hmp : a.newNode ∈ l1 ++ a.newNode :: l2 := by simp
  obtain ⟨w3, a3, b3, E3, ⟨G3, F3, -⟩, h4⟩ := Builder.fold_any (n := n)
    (I := fun w' a' b' E' i => Graft a a.newNode p (l1 ++ a.newNode :: l2) T w' a' b' i ∧ Graft.At a' a.newNode p E' b' ∧ E' ≠ [])
    (fun h => ⟨h.1.shows, h.2.2, fun x hx =>
      ⟨h.1.children x (hal x hx) (hxp x hx), h.1.data x (hal x hx), h.1.borrowed x (hal x hx)⟩⟩)
    (fun h hij => ⟨h.1.mono hij, h.2⟩)
    (fun e h R' hg => by
      obtain ⟨w', a', b', g1, g2, g3⟩ := h.1.push h.2.1 S R' hm0 hmp hp0 e hg
      exact ⟨w', a', b', g1, g2, g3, by simp [h.2.2]⟩)
    S ht hal hu hs f (l := l) (pre := [.opn n]) ⟨G, F, by simp⟩ hev (.some hdn) (by omega) (by rw [hl1]; exact R)
  rw [hl1] at G3
  have hzT := hT'
  rcases h4 with ⟨g1, g2, rfl⟩ | ⟨⟨x, g1, g1'⟩, g2⟩
  · obtain ⟨w4, w5, a5, k1, k2, k3, k4, k5, k6, k7, k8⟩ := G3.finish F3 hr S R hm0 hpT hp0 hk' hzT
    refine .inl ⟨fun x hx => ?_, w5, a5, a.newNode, ?_, k3, k4, k5, k6, k7, k8⟩
    · have := (mem_events_opn t).2 hx
      rw [hev] at this
      rcases List.mem_cons.1 this with h | h
      · cases h; exact hn
      · exact g1 x h
    · simp only [Builder.tryCloneInsert, Heap.borrowData, hn, hdn, Bool.false_eq_true, if_false, bind, Except.bind, pure,
        Except.pure, e1, e3, e2, g2, k1, k2]
  · obtain ⟨w4, a4, v, k1, k3, k4, k5, k6, k7, k8⟩ := G3.dropAll F3 hr S R hm0 hpT hp0 hk' hzT
    refine .inr ⟨⟨x, (mem_events_opn t).1 (by rw [hev]; exact List.mem_cons_of_mem _ g1), g1'⟩, w4, a4, a.newNode, v, ?_,
      k3, k4, k5, k6, k7, k8⟩
    simp only [Builder.tryCloneInsert, Heap.borrowData, hn, hdn, Bool.false_eq_true, if_false, bind, Except.bind, pure,
      Except.pure, e1, e3, e2, g2, k1]

end Dendron
