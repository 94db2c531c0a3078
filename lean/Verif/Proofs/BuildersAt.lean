import Verif.Proofs.BuildersFed

/-! A builder started at any node, among other calls. -/

set_option linter.unusedSimpArgs false
set_option linter.unusedVariables false

set_option autoImplicit false

namespace Dendron
open RTree
variable {α : Type} {w w' w1 : World α} {a a' : Forest α} {r x : NodeId} {ks : List (RTree NodeId)}
  {fs : List (Frame NodeId)} {E : List (Option α)} {k : Nat} {b b' : Builder} {e : Event α}
  {res : Except BuildError Unit} {s : RTree NodeId}

/-- The builder has made the steps `E`, counting the steps that make what was below its root at the start. -/
inductive FedAt (a : Forest α) (r : NodeId) (E : List (Option α)) : Builder → Nat → Prop
  | opened {x : NodeId} {ks : List (RTree NodeId)} {fs : List (Frame NodeId)} : OpenF a r E x ks fs →
      FedAt a r E ⟨some r, some x⟩ (fs.length + 1)
  | closed {c : Option NodeId} {s : RTree NodeId} : ClosedF a r E s → FedAt a r E ⟨some r, c⟩ 0

theorem OpenF.childAt {d : α} {t : TreeId} (S : Shows w a) (O : OpenF a r E x ks fs) :
    OpenF (((a.addNode d t).setChildren x (a.children x ++ [a.newNode])).shift x a.newNode) r (E ++ [some d]) a.newNode []
      ((x, ks) :: fs) := by
  have L := S.children
  have dead : a.data a.newNode = none := by
    have := L.fresh_not_alive
    rw [← S.newNode] at this
    apply Classical.byContradiction
    intro h
    rw [S.alive.2 h] at this; cases this
  have nochild : a.children a.newNode = [] := by
    have := L.fresh_not_alive
    rw [← S.newNode] at this
    exact L.dead _ this
  have hne : ∀ y, a.data y ≠ none → y ≠ a.newNode := by
    rintro y hy rfl; exact hy dead
  have hnd := O.nodup
  simp only [nodesF, List.nodup_append, List.nodup_cons, List.mem_cons] at hnd
  obtain ⟨nd1, ⟨nd2, nd3⟩, nd4⟩ := hnd
  have hxn : x ≠ a.newNode := hne x (O.alive x (by simp [nodesF]))
  refine ⟨⟨?_, trivial, ?_, ?_, ?_⟩, O.bottom, ?_, ?_, ?_⟩
  · show upd a.children x _ a.newNode = _
    rw [upd_ne _ _ (Ne.symm hxn), nochild]; rfl
  · show upd a.children x _ x = _
    rw [upd_same, O.ok.1]; simp
  · refine HierL.congr ?_ O.ok.2.1
    intro z hz
    show upd a.children x _ z = _
    rw [upd_ne]; rintro rfl; exact nd2 hz
  · refine O.ok.2.2.congr ?_
    intro z hz
    show upd a.children x _ z = _
    rw [upd_ne]; rintro rfl; exact nd4 z hz z (.inl rfl) rfl
  · rw [nodesF, nodesL, List.nodup_append]
    refine ⟨O.nodup, by simp, ?_⟩
    intro z hz z' hz'
    simp only [List.mem_singleton] at hz'
    subst hz'
    exact hne z (O.alive z hz)
  · intro z hz
    rw [nodesF, nodesL, List.mem_append] at hz
    show upd a.data a.newNode (some d) z ≠ none
    rcases hz with hz | hz
    · rw [upd_ne _ _ (hne z (O.alive z hz))]; exact O.alive z hz
    · simp only [List.mem_singleton] at hz; subst hz; rw [upd_same]; simp
  · rw [enc, stepsL_nil]
    refine Matches.append (O.dat.congr ?_) (.some ?_)
    · intro z hz
      show upd a.data a.newNode (some d) z = _
      rw [upd_ne _ _ (hne z (O.alive z (mem_enc.1 hz)))]
    · show upd a.data a.newNode (some d) a.newNode = _
      rw [upd_same]

theorem FedAt.push (hr : ReachW w) (S : Shows w a) (ho : b.Owned w) (F : FedAt a r E b k)
    (hb : a.Builds b e res a' b') (hg : ∃ j u, Describes (E ++ Event.expand [e]) j u) :
    res = .ok () ∧ ∃ k', FedAt a' r (E ++ Event.expand [e]) b' k' := by
  have L := S.children
  obtain ⟨i, t0, h⟩ := hg
  cases F with
  | @closed c s C =>
    obtain ⟨u, hu, -⟩ := C.describes S
    have h0 := hu.complete h
    cases e with
    | opn d => simp [Event.expand] at h0
    | close n =>
      cases n with
      | succ n => simp [Event.expand, List.replicate_succ] at h0
      | zero =>
        cases hb with
        | nothing => exact ⟨rfl, _, by simpa [Event.expand] using FedAt.closed (c := c) C⟩
  | @opened x ks fs O =>
    obtain ⟨u, hu, -⟩ := O.describes S
    cases hb with
    | @child _ _ t d htr => exact ⟨rfl, _, .opened (O.childAt S)⟩
    | nothing => exact ⟨rfl, _, by simpa [Event.expand] using FedAt.opened O⟩
    | @up _ _ m p k hc hm =>
      refine ⟨rfl, ?_⟩
      obtain ⟨h1, ks1, fs1, O1, h2⟩ := O.climb L hc
      have he : E ++ Event.expand [.close (k + 1)] = E ++ List.replicate k none ++ [none] := by
        simp [Event.expand, List.replicate_succ']
      rw [he]
      cases fs1 with
      | nil =>
        have C := O1.zip
        exact ⟨0, .closed ⟨C.sub, C.alive, C.dat⟩⟩
      | cons g fs1 =>
        obtain ⟨y, ks2⟩ := g
        obtain ⟨-, hy, O2⟩ := O1.pop
        obtain rfl := L.unique_parent hm hy
        exact ⟨fs1.length + 1, .opened (fs := fs1) (ks := ks2 ++ [.node m ks1]) (O2.congr (a' := a.shift x p) (fun _ _ => rfl) (fun _ _ => rfl))⟩
    | @out _ _ m k hc hm =>
      refine ⟨rfl, ?_⟩
      obtain ⟨h1, ks1, fs1, O1, h2⟩ := O.climb L hc
      cases fs1 with
      | cons g fs1 =>
        obtain ⟨y, ks2⟩ := g
        exact absurd O1.pop.2.1 (hm y)
      | nil =>
        obtain rfl : m = r := O1.bottom
        have htr := hr.tree_climbs S hc
        have hsw := Forest.take_sweep (hr.swept S) (by rw [S.held]; exact ho.root _ rfl) htr
        refine ⟨0, ?_⟩
        rw [hsw]
        have C := O1.zip
        have : E ++ Event.expand [.close (k + 1)] = E ++ List.replicate k none ++ [none] := by
          simp [Event.expand, List.replicate_succ']
        rw [this]
        exact .closed ⟨C.sub, C.alive, C.dat⟩
    | @tooFar _ _ m j k hc hj hm =>
      exfalso
      simp only [Event.expand, List.append_nil] at h
      have h3 := (hu.depth h).1
      obtain ⟨h1, ks1, fs1, O1, h2⟩ := O.climb L hc
      cases fs1 with
      | nil => simp at h2; omega
      | cons g fs1 =>
        obtain ⟨y, ks2⟩ := g
        obtain ⟨g1, g2, -⟩ := O1.pop
        rcases hm with hm | hm
        · exact g1 hm
        · exact hm y g2

theorem FedAt.other (F : FedAt a r E b k) (S : Shows w a) (S' : Shows w' a') (hl : b.LeftAlone w w') :
    FedAt a' r E b k := by
  cases F with
  | @opened x ks fs O =>
    obtain ⟨h1, -⟩ := hl r _ _ rfl S.children S'.children
    have hz := O.zip
    have key : ∀ y ∈ nodesF ((x, ks) :: fs), Desc a.children r y := by
      intro y hy
      refine (hz.sub.mem_nodes_iff y).1 ?_
      rw [zipUp_nodes]; exact hy
    refine .opened (O.congr (fun y hy => (h1 y (key y hy)).1) (fun y hy => ?_))
    rw [S.data, S'.data]; exact (h1 y (key y hy)).2
  | @closed c s C =>
    obtain ⟨h1, -⟩ := hl r _ _ rfl S.children S'.children
    have key : ∀ y ∈ s.nodes, Desc a.children r y := fun y hy => (C.sub.mem_nodes_iff y).1 hy
    have hd : ∀ y ∈ s.nodes, a'.data y = a.data y := by
      intro y hy
      rw [S.data, S'.data]; exact (h1 y (key y hy)).2
    refine .closed ⟨⟨C.sub.1, ?_⟩, fun y hy => by rw [hd y hy]; exact C.alive y hy, ?_⟩
    · exact Hier.congr (fun y hy => (h1 y (key y hy)).1) C.sub.2
    · refine C.dat.congr fun y hy => hd y (mem_steps.1 hy)

theorem FedAt.describes (S : Shows w a) (F : FedAt a r E b k) :
    ∃ u s, Describes E k u ∧ SubtreeAt a.children r s ∧ HasData w.heap s u ∧ b.root = some r ∧
      (0 < k → ∃ c, b.cur = some c ∧ Desc a.children r c) := by
  cases F with
  | @opened x ks fs O =>
    obtain ⟨u, h1, h2⟩ := O.describes S
    refine ⟨u, _, h1, O.zip.sub, h2, rfl, fun _ => ⟨x, rfl, (O.zip.sub.mem_nodes_iff x).1 ?_⟩⟩
    rw [zipUp_nodes]; simp [nodesF, nodes, label]
  | @closed c s C =>
    obtain ⟨u, h1, h2⟩ := C.describes S
    exact ⟨u, s, h1, C.sub, h2, rfl, fun h => absurd h (Nat.lt_irrefl 0)⟩

theorem Builder.Owned.after {w2 : World α} {a2 : Forest α} (ho : b.Owned w) (hr : ReachW w) (S : Shows w a)
    (hr2 : ReachW w2) (S2 : Shows w2 a2) (hb : a.Builds b e res a2 b') : b'.Owned w2 := by
  have W : WithBuilders w ([] ++ b :: []) := ⟨hr, fun k n => by
    cases k
    · cases e1 : b.root with
      | none => simp [Builder.share, e1]
      | some r =>
        simp only [Builder.share, List.nil_append, List.countP_cons, List.countP_nil, e1, beq_iff_eq, Option.some.injEq]
        split
        · rename_i h; have := ho.root r e1; rw [h] at this; omega
        · omega
    · cases e1 : b.cur with
      | none => simp [Builder.share, e1]
      | some r =>
        simp only [Builder.share, List.nil_append, List.countP_cons, List.countP_nil, e1, beq_iff_eq, Option.some.injEq]
        split
        · rename_i h; have := ho.cur r e1; rw [h] at this; omega
        · omega
    · exact Nat.zero_le _, by
    intro x hx; simp at hx; subst hx; exact ho.both⟩
  exact (W.push S hr2 S2 hb).owned

theorem Fed.at {l : List (Event α)} {w1 : World α} {b1 : Builder} (h : Fed w b l w1 b1) :
    ∀ {a : Forest α} {E : List (Option α)} {k : Nat}, ReachW w → Shows w a → b.Owned w → FedAt a r E b k →
    (∃ j u, Describes (E ++ Event.expand l) j u) →
    ReachW w1 ∧ b1.Owned w1 ∧ ∃ a1 k1, Shows w1 a1 ∧ FedAt a1 r (E ++ Event.expand l) b1 k1 := by
  induction h with
  | nil => intro a E k hr S ho F _; exact ⟨hr, ho, a, k, S, by simpa [Event.expand] using F⟩
  | @other w w' w1 b b1 l op r s hs hl _ ih =>
    intro a E k hr S ho F hg
    obtain ⟨a', S', -⟩ := s.plays hr S
    exact ih (.step hr s) S' (Builder.owned_of hs ho.both) (F.other S S' hl) hg
  | @push w w' w1 b b' b1 e l R hl run _ ih =>
    intro a E k hr S ho F hg
    obtain ⟨w2, b2, res, a2, e2, hr2, S2, hb, -⟩ := hr.push_builds (e := e) S R ho (fun c d hc he => hl c d hc he _ S.children)
    rw [run] at e2
    simp only [Except.ok.injEq, Prod.mk.injEq] at e2
    obtain ⟨rfl, rfl, rfl⟩ := e2
    have hcons : Event.expand (e :: l) = Event.expand [e] ++ Event.expand l := expand_append [e] l
    rw [hcons, ← List.append_assoc] at hg ⊢
    have hg1 : ∃ j u, Describes (E ++ Event.expand [e]) j u := by
      obtain ⟨j, u, h1⟩ := hg
      rcases h1.of_append with h2 | h2
      · exfalso
        obtain ⟨v, s, h3, -⟩ := F.describes S
        rw [(List.append_eq_nil_iff.1 h2).1] at h3
        exact Describes.not_nil h3
      · exact h2
    obtain ⟨-, k', F'⟩ := F.push hr S ho hb hg1
    exact ih hr2 S2 (ho.after hr S hr2 S2 hb) F' hg

/-- A builder just started at a node. -/
theorem ReachW.start {n : NodeId} {t0 : RTree NodeId} {u0 : RTree α} (hr : ReachW w) (S : Shows w a) (R : w.Spare)
    (hk : 0 < w.held .hot n) (ht : SubtreeAt a.children n t0) (hd : HasData w.heap t0 u0) (hE : Describes E 1 u0) :
    ∃ w1 a1, Builder.withRoot w n = .ok (w1, ⟨some n, some n⟩) ∧ ReachW w1 ∧ Shows w1 a1 ∧
      (⟨some n, some n⟩ : Builder).Owned w1 ∧ a1.children = a.children ∧ ∃ ks, OpenF a1 n E n ks [] := by
  obtain ⟨w1, e1, hr1, S1⟩ := hr.with_root S R hk
  have hp : 0 < w1.held .plain n ∧ 0 < w1.held .hot n := by
    rw [← S1.held]
    constructor
    · simp [Forest.give]
    · have : 0 < a.held .hot n := by rw [S.held]; exact hk
      simpa [Forest.give] using this
  refine ⟨w1, _, e1, hr1, S1, ⟨fun x hx => ?_, fun x hx => ?_, fun h => by cases h⟩, rfl, ?_⟩
  · cases hx; exact hp.1
  · cases hx; exact hp.2
  · cases t0 with
    | node v cs =>
      obtain ⟨h1, h2⟩ := ht
      have hv : v = n := h1
      subst hv
      have hn : nodesF [(v, cs)] = (node v cs).nodes := by simp [nodesF, nodes]
      have hal : w.heap.alive v = true := by
        obtain ⟨v', ch, W⟩ := hr.wide
        exact W.held_alive hk
      refine ⟨cs, ⟨by show a.children v = _; rw [h2.1]; simp, h2.2, trivial⟩, rfl, ?_, ?_, ?_⟩
      · rw [hn]; exact SubtreeAt.nodup S.children ⟨h1, h2⟩
      · intro y hy; rw [hn] at hy
        refine S.alive.1 ?_
        exact S.children.desc_alive hal ((SubtreeAt.mem_nodes_iff ⟨h1, h2⟩ y).1 hy)
      · have hm := (Matches.tree (f := w.heap.data)).2 hd
        rw [← show E ++ List.replicate 1 none = u0.steps from hE, steps_node] at hm
        show Matches a.data _ _
        rw [S.data]
        have : enc [(v, cs)] = some v :: stepsL cs := by simp [enc]
        rw [this]
        rw [Matches] at hm ⊢
        simp only [List.map_append, List.map_cons, List.replicate_one, List.map_nil] at hm
        rw [← List.cons_append] at hm
        exact List.append_cancel_right hm

end Dendron
