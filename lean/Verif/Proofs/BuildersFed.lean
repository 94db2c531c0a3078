import Verif.Proofs.Builders
import Verif.Proofs.BuildAll
import Verif.Proofs.Scan

/-! A builder whose subtree the rest of the program leaves alone (C68). -/

set_option linter.unusedSimpArgs false
set_option linter.unusedVariables false

set_option autoImplicit false

namespace Dendron
open RTree
variable {α : Type} {w w' : World α} {a a' : Forest α} {r x y m : NodeId} {ks ks' : List (RTree NodeId)}
  {fs : List (Frame NodeId)} {E : List (Option α)} {k : Nat} {b b' : Builder} {e : Event α}
  {res : Except BuildError Unit} {s : RTree NodeId}

/-- The nodes of the frames are open. -/
structure OpenF (a : Forest α) (r : NodeId) (E : List (Option α)) (x : NodeId) (ks : List (RTree NodeId))
    (fs : List (Frame NodeId)) : Prop where
  ok : FramesOK a.children [] ((x, ks) :: fs)
  bottom : Bottom r ((x, ks) :: fs)
  nodup : (nodesF ((x, ks) :: fs)).Nodup
  alive : ∀ y ∈ nodesF ((x, ks) :: fs), a.data y ≠ none
  dat : Matches a.data (enc ((x, ks) :: fs)) E

/-- The root is closed. -/
structure ClosedF (a : Forest α) (r : NodeId) (E : List (Option α)) (s : RTree NodeId) : Prop where
  sub : SubtreeAt a.children r s
  alive : ∀ y ∈ s.nodes, a.data y ≠ none
  dat : Matches a.data s.steps E

theorem matches_inj {l l' : List (Option α)} (e : l.map (Option.map some) = l'.map (Option.map some)) : l = l' := by
  induction l generalizing l' with
  | nil => cases l' <;> simp_all
  | cons a l ih =>
    cases l' with
    | nil => simp at e
    | cons b m =>
      simp only [List.map_cons, List.cons.injEq] at e
      rw [ih e.2]
      congr 1
      cases a <;> cases b <;> simp_all

theorem ClosedF.describes (S : Shows w a) (C : ClosedF a r E s) : ∃ u, Describes E 0 u ∧ HasData w.heap s u := by
  obtain ⟨u, hu⟩ := exists_data (h := w.heap) s (fun y hy => S.alive.2 (C.alive y hy))
  refine ⟨u, ?_, hu⟩
  have h1 := C.dat
  have h2 := (Matches.tree (f := w.heap.data)).2 hu
  rw [S.data] at h1
  rw [Matches] at h1 h2
  rw [h1] at h2
  rw [Describes, List.replicate_zero, List.append_nil]
  exact matches_inj h2

namespace OpenF

theorem zip (O : OpenF a r E x ks fs) :
    ClosedF a r (E ++ List.replicate (fs.length + 1) none) (zipUp (.node x ks) fs) where
  sub := ⟨zipUp_label O.bottom, zipUp_hier ⟨by rw [O.ok.1]; simp, O.ok.2.1⟩ O.ok.2.2⟩
  alive := fun y hy => O.alive y (by rw [zipUp_nodes] at hy; exact hy)
  dat := by rw [← enc_frames]; exact O.dat.append (.none _)

theorem describes (S : Shows w a) (O : OpenF a r E x ks fs) :
    ∃ u, Describes E (fs.length + 1) u ∧ HasData w.heap (zipUp (.node x ks) fs) u := by
  obtain ⟨u, h1, h2⟩ := O.zip.describes S
  refine ⟨u, ?_, h2⟩
  rw [Describes, List.replicate_zero, List.append_nil] at h1
  exact h1

theorem congr (O : OpenF a r E x ks fs) (hc : ∀ y ∈ nodesF ((x, ks) :: fs), a'.children y = a.children y)
    (hd : ∀ y ∈ nodesF ((x, ks) :: fs), a'.data y = a.data y) : OpenF a' r E x ks fs :=
  ⟨O.ok.congr hc, O.bottom, O.nodup, fun y hy => by rw [hd y hy]; exact O.alive y hy,
    O.dat.congr fun y hy => hd y (mem_enc.1 hy)⟩

theorem pop {ks' : List (RTree NodeId)} (O : OpenF a r E x ks ((y, ks') :: fs)) :
    x ≠ r ∧ x ∈ a.children y ∧ OpenF a r (E ++ [none]) y (ks' ++ [.node x ks]) fs := by
  have hxr : x ≠ r := by
    rintro rfl
    have h1 : x ∈ nodesF ((y, ks') :: fs) := Bottom.mem O.bottom
    have h2 := O.nodup
    rw [nodesF, List.nodup_append] at h2
    exact h2.2.2 x h1 x (by simp) rfl
  have hnf : nodesF ((y, ks' ++ [.node x ks]) :: fs) = nodesF ((x, ks) :: (y, ks') :: fs) := by
    simp [nodesF, nodesL_eq, nodes]
  refine ⟨hxr, by rw [O.ok.2.2.1]; simp, ?_, ?_, ?_, ?_, ?_⟩
  · refine ⟨?_, HierL.append O.ok.2.2.2.1 ⟨⟨?_, O.ok.2.1⟩, trivial⟩, O.ok.2.2.2.2⟩
    · rw [O.ok.2.2.1]; simp [label]
    · rw [O.ok.1]; simp
  · have := O.bottom
    cases fs with
    | nil => exact this
    | cons g fs => exact this
  · rw [hnf]; exact O.nodup
  · intro z hz; rw [hnf] at hz; exact O.alive z hz
  · have : enc ((y, ks' ++ [.node x ks]) :: fs) = enc ((x, ks) :: (y, ks') :: fs) ++ [none] := by
      simp [enc, stepsL_append, stepsL_cons, stepsL_nil, steps_node]
    rw [this]
    exact O.dat.append (.none 1)

/-- Going up closes nodes. -/
theorem climb (F : FShape w.heap a.children) : ∀ {k : Nat} {E : List (Option α)} {x m : NodeId} {ks : List (RTree NodeId)}
    {fs : List (Frame NodeId)}, OpenF a r E x ks fs → a.Climbs r x k m →
    k ≤ fs.length ∧ ∃ ks' fs', OpenF a r (E ++ List.replicate k none) m ks' fs' ∧ fs'.length + k = fs.length
  | 0, E, x, m, ks, fs, O, h => by
    cases h
    exact ⟨Nat.zero_le _, ks, fs, by simpa using O, rfl⟩
  | k + 1, E, x, m, ks, fs, O, h => by
    cases h with
    | up hc hp h =>
      cases fs with
      | nil => exact absurd O.bottom hc
      | cons g fs =>
        obtain ⟨y, ks'⟩ := g
        obtain ⟨-, hy, O'⟩ := O.pop
        obtain rfl := F.unique_parent hp hy
        obtain ⟨h1, ks2, fs2, O2, h2⟩ := climb F O' h
        refine ⟨by simp; omega, ks2, fs2, ?_, by simp; omega⟩
        rw [List.append_assoc] at O2
        exact O2

end OpenF

/-- The builder has made the steps `E`. -/
inductive FedState (a : Forest α) (E : List (Option α)) : Builder → Nat → Prop
  | fresh : E = [] → FedState a E ⟨none, none⟩ 0
  | opened {r x : NodeId} {ks : List (RTree NodeId)} {fs : List (Frame NodeId)} : OpenF a r E x ks fs → a.IsTop r →
      FedState a E ⟨some r, some x⟩ (fs.length + 1)
  | closed {r : NodeId} {s : RTree NodeId} : ClosedF a r E s → a.IsTop r → FedState a E ⟨some r, none⟩ 0

theorem Describes.not_nil {k : Nat} {u : RTree α} : ¬ Describes (β := α) [] k u := by
  intro h
  rw [Describes] at h
  cases u with
  | node v cs => rw [steps_node] at h; cases k <;> simp [List.replicate_succ] at h

theorem ReachW.tree_climbs (hr : ReachW w) (S : Shows w a) (h : a.Climbs r x k m) : a.tree m = a.tree x := by
  induction h with
  | here => rfl
  | up _ hp _ ih => rw [ih]; exact hr.tree_mem S hp

/-- Dropping the cursor of a builder whose root is in the same tree destroys nothing. -/
theorem Forest.take_sweep (h : a.sweep = a) (hp : 0 < a.held .plain r) (ht : a.tree r = a.tree x) :
    (a.take .hot x).sweep = a.take .hot x := by
  refine Forest.sweep_same h rfl rfl rfl rfl rfl ?_
  rintro t (g | ⟨k, n, g, e⟩)
  · exact .inl g
  · by_cases hk : k = .hot ∧ n = x
    · obtain ⟨rfl, rfl⟩ := hk
      exact .inr ⟨.plain, r, by simpa [Forest.take] using hp, ht.trans e⟩
    · exact .inr ⟨k, n, by simpa only [Forest.take, if_neg hk] using g, e⟩

theorem FedState.push (hr : ReachW w) (S : Shows w a) (ho : b.Owned w) (F : FedState a E b k)
    (hb : a.Builds b e res a' b') :
    (res = .ok () ∧ ∃ k', FedState a' (E ++ Event.expand [e]) b' k') ∨
    ((∃ err, res = .error err) ∧ E ++ Event.expand [e] ≠ [] ∧ ¬ ∃ j t, Describes (E ++ Event.expand [e]) j t) := by
  have L := S.children
  have dead : a.data a.newNode = none := by
    have := L.fresh_not_alive
    rw [← S.newNode] at this
    apply Classical.byContradiction
    intro h
    rw [S.alive.2 h] at this; cases this
  have nochild : a.children a.newNode = [] := by
    have := L.fresh_not_alive
    rw [← S.newNode] at this
    exact L.dead _ this
  have noparent : ∀ p, a.newNode ∉ a.children p := by
    intro p hp
    have := S.alive.1 (L.alive_of_mem hp)
    exact this dead
  have hne : ∀ y, a.data y ≠ none → y ≠ a.newNode := by
    rintro y hy rfl; exact hy dead
  cases F with
  | fresh hE =>
    subst hE
    cases hb with
    | first d =>
      refine .inl ⟨rfl, _, .opened (ks := []) (fs := []) ⟨⟨nochild, trivial, trivial⟩, rfl, by simp [nodesF, nodesL], ?_, ?_⟩ noparent⟩
      · intro y hy
        simp only [nodesF, nodesL, List.nil_append, List.mem_singleton] at hy
        subst hy
        show upd a.data a.newNode (some d) a.newNode ≠ none
        rw [upd_same]; simp
      · refine Matches.some ?_
        show upd a.data a.newNode (some d) a.newNode = _
        rw [upd_same]
    | nothing => exact .inl ⟨rfl, _, by simpa [Event.expand] using FedState.fresh rfl⟩
    | @early k =>
      refine .inr ⟨⟨_, rfl⟩, by simp [Event.expand, List.replicate_succ], ?_⟩
      rintro ⟨j, t, h⟩
      rw [Describes] at h
      cases t with
      | node v cs => rw [steps_node] at h; simp [Event.expand, List.replicate_succ] at h
  | @closed r s C ht =>
    obtain ⟨u, hu, -⟩ := C.describes S
    have hE : E ≠ [] := by rintro rfl; exact Describes.not_nil hu
    cases hb with
    | closed d =>
      refine .inr ⟨⟨_, rfl⟩, by simp [hE], ?_⟩
      rintro ⟨j, t, h⟩
      have := hu.complete h
      simp [Event.expand] at this
    | nothing => exact .inl ⟨rfl, _, by simpa [Event.expand] using FedState.closed C ht⟩
    | over =>
      refine .inr ⟨⟨_, rfl⟩, by simp [hE], ?_⟩
      rintro ⟨j, t, h⟩
      have := hu.complete h
      simp [Event.expand, List.replicate_succ] at this
  | @opened r x ks fs O ht =>
    obtain ⟨u, hu, -⟩ := O.describes S
    have hE : E ≠ [] := by rintro rfl; exact Describes.not_nil hu
    cases hb with
    | @child _ _ t d htr =>
      refine .inl ⟨rfl, ((x, ks) :: fs).length + 1, ?_⟩
      have hnd := O.nodup
      simp only [nodesF, List.nodup_append, List.nodup_cons, List.mem_cons] at hnd
      obtain ⟨nd1, ⟨nd2, nd3⟩, nd4⟩ := hnd
      have hxn : x ≠ a.newNode := hne x (O.alive x (by simp [nodesF]))
      have hrn : r ≠ a.newNode := hne r (O.alive r (Bottom.mem O.bottom))
      refine .opened (ks := []) ⟨⟨?_, trivial, ?_, ?_, ?_⟩, O.bottom, ?_, ?_, ?_⟩ ?_
      · show upd a.children x _ a.newNode = _
        rw [upd_ne _ _ (Ne.symm hxn), nochild]; rfl
      · show upd a.children x _ x = _
        rw [upd_same, O.ok.1]; simp
      · refine HierL.congr ?_ O.ok.2.1
        intro z hz
        show upd a.children x _ z = _
        rw [upd_ne]; rintro rfl; exact nd2 hz
      · refine O.ok.2.2.congr ?_
        intro z hz
        show upd a.children x _ z = _
        rw [upd_ne]; rintro rfl; exact nd4 z hz z (.inl rfl) rfl
      · rw [nodesF, nodesL, List.nodup_append]
        refine ⟨O.nodup, by simp, ?_⟩
        intro z hz z' hz'
        simp only [List.mem_singleton] at hz'
        subst hz'
        exact hne z (O.alive z hz)
      · intro z hz
        rw [nodesF, nodesL, List.mem_append] at hz
        show upd a.data a.newNode (some d) z ≠ none
        rcases hz with hz | hz
        · rw [upd_ne _ _ (hne z (O.alive z hz))]; exact O.alive z hz
        · simp only [List.mem_singleton] at hz; subst hz; rw [upd_same]; simp
      · rw [enc, stepsL_nil]
        refine Matches.append (O.dat.congr ?_) (.some ?_)
        · intro z hz
          show upd a.data a.newNode (some d) z = _
          rw [upd_ne _ _ (hne z (O.alive z (mem_enc.1 hz)))]
        · show upd a.data a.newNode (some d) a.newNode = _
          rw [upd_same]
      · intro p hp
        replace hp : r ∈ upd a.children x (a.children x ++ [a.newNode]) p := hp
        by_cases hpx : p = x
        · subst hpx
          rw [upd_same, List.mem_append] at hp
          rcases hp with hp | hp
          · exact ht _ hp
          · exact hrn (by simpa using hp)
        · rw [upd_ne _ _ hpx] at hp; exact ht p hp
    | nothing => exact .inl ⟨rfl, _, by simpa [Event.expand] using FedState.opened O ht⟩
    | @up _ _ m p k hc hm =>
      refine .inl ⟨rfl, ?_⟩
      obtain ⟨h1, ks1, fs1, O1, h2⟩ := O.climb L hc
      cases fs1 with
      | nil =>
        obtain rfl : m = r := O1.bottom
        exact absurd hm (ht p)
      | cons g fs1 =>
        obtain ⟨y, ks2⟩ := g
        obtain ⟨-, hy, O2⟩ := O1.pop
        obtain rfl := L.unique_parent hm hy
        refine ⟨fs1.length + 1, .opened (fs := fs1) (ks := ks2 ++ [.node m ks1]) ?_ (fun q hq => ht q hq)⟩
        · have : E ++ Event.expand [.close (k + 1)] = E ++ List.replicate k none ++ [none] := by
            simp [Event.expand, List.replicate_succ']
          rw [this]
          exact O2.congr (fun _ _ => rfl) (fun _ _ => rfl)
    | @out _ _ m k hc hm =>
      refine .inl ⟨rfl, ?_⟩
      obtain ⟨h1, ks1, fs1, O1, h2⟩ := O.climb L hc
      cases fs1 with
      | cons g fs1 =>
        obtain ⟨y, ks2⟩ := g
        exact absurd O1.pop.2.1 (hm y)
      | nil =>
        obtain rfl : m = r := O1.bottom
        have htr := hr.tree_climbs S hc
        have hsw := Forest.take_sweep (hr.swept S) (by rw [S.held]; exact ho.root _ rfl) htr
        refine ⟨0, ?_⟩
        rw [hsw]
        have C := O1.zip
        have : E ++ Event.expand [.close (k + 1)] = E ++ List.replicate k none ++ [none] := by
          simp [Event.expand, List.replicate_succ']
        rw [this]
        exact .closed ⟨C.sub, C.alive, C.dat⟩ (fun q hq => ht q hq)
    | @tooFar _ _ m j k hc hj hm =>
      refine .inr ⟨⟨_, rfl⟩, by simp [hE], ?_⟩
      rintro ⟨i, t, h⟩
      simp only [Event.expand, List.append_nil] at h
      have h3 := (hu.depth h).1
      obtain ⟨h1, ks1, fs1, O1, h2⟩ := O.climb L hc
      cases fs1 with
      | nil => simp at h2; omega
      | cons g fs1 =>
        obtain ⟨y, ks2⟩ := g
        obtain ⟨g1, g2, -⟩ := O1.pop
        rcases hm with hm | hm
        · exact g1 hm
        · exact hm y g2

theorem FedState.other (F : FedState a E b k) (S : Shows w a) (S' : Shows w' a') (hl : b.LeftAlone w w') :
    FedState a' E b k := by
  cases F with
  | fresh h => exact .fresh h
  | @opened r x ks fs O ht =>
    obtain ⟨h1, h2⟩ := hl r _ _ rfl S.children S'.children
    have hz := O.zip
    have key : ∀ y ∈ nodesF ((x, ks) :: fs), Desc a.children r y := by
      intro y hy
      refine (hz.sub.mem_nodes_iff y).1 ?_
      rw [zipUp_nodes]; exact hy
    refine .opened (O.congr (fun y hy => (h1 y (key y hy)).1) (fun y hy => ?_)) (h2 ht)
    rw [S.data, S'.data]; exact (h1 y (key y hy)).2
  | @closed r s C ht =>
    obtain ⟨h1, h2⟩ := hl r _ _ rfl S.children S'.children
    have key : ∀ y ∈ s.nodes, Desc a.children r y := fun y hy => (C.sub.mem_nodes_iff y).1 hy
    have hd : ∀ y ∈ s.nodes, a'.data y = a.data y := by
      intro y hy
      rw [S.data, S'.data]; exact (h1 y (key y hy)).2
    refine .closed ⟨⟨C.sub.1, ?_⟩, fun y hy => by rw [hd y hy]; exact C.alive y hy, ?_⟩ (h2 ht)
    · exact Hier.congr (fun y hy => (h1 y (key y hy)).1) C.sub.2
    · refine C.dat.congr fun y hy => hd y (mem_steps.1 hy)

theorem Fed.state {l : List (Event α)} {w1 : World α} {b1 : Builder} (h : Fed w b l w1 b1) :
    ∀ {a : Forest α} {E : List (Option α)} {k : Nat}, ReachW w → Shows w a → b.Owned w → FedState a E b k →
    ReachW w1 ∧ b1.Owned w1 ∧ ∃ a1 k1, Shows w1 a1 ∧ FedState a1 (E ++ Event.expand l) b1 k1 := by
  induction h with
  | nil => intro a E k hr S ho F; exact ⟨hr, ho, a, k, S, by simpa [Event.expand] using F⟩
  | @other w w' w1 b b1 l op r s hs hl _ ih =>
    intro a E k hr S ho F
    obtain ⟨a', S', -⟩ := s.plays hr S
    exact ih (.step hr s) S' (Builder.owned_of hs ho.both) (F.other S S' hl)
  | @push w w' w1 b b' b1 e l R hl run _ ih =>
    intro a E k hr S ho F
    obtain ⟨w2, b2, res, a2, e2, hr2, S2, hb, -⟩ := hr.push_builds (e := e) S R ho (fun c d hc he => hl c d hc he _ S.children)
    rw [run] at e2
    simp only [Except.ok.injEq, Prod.mk.injEq] at e2
    obtain ⟨rfl, rfl, rfl⟩ := e2
    have ho' : b'.Owned w' := by
      have W : WithBuilders w ([] ++ b :: []) := ⟨hr, fun k n => by
        cases k
        · cases e1 : b.root with
          | none => simp [Builder.share, e1]
          | some r =>
            simp only [Builder.share, List.nil_append, List.countP_cons, List.countP_nil, e1, beq_iff_eq, Option.some.injEq]
            split
            · rename_i h; have := ho.root r e1; rw [h] at this; omega
            · omega
        · cases e1 : b.cur with
          | none => simp [Builder.share, e1]
          | some r =>
            simp only [Builder.share, List.nil_append, List.countP_cons, List.countP_nil, e1, beq_iff_eq, Option.some.injEq]
            split
            · rename_i h; have := ho.cur r e1; rw [h] at this; omega
            · omega
        · exact Nat.zero_le _, by
        intro x hx; simp at hx; subst hx; exact ho.both⟩
      exact (W.push S hr2 S2 hb).owned
    rcases F.push hr S ho hb with ⟨-, k', F'⟩ | ⟨⟨err, h⟩, -⟩
    · obtain ⟨g1, g2, a1, k1, g3, g4⟩ := ih hr2 S2 ho' F'
      refine ⟨g1, g2, a1, k1, g3, ?_⟩
      rw [List.append_assoc, ← expand_append] at g4
      exact g4
    · cases h

end Dendron
