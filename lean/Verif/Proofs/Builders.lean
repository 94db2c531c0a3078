import Verif.Spec.Builders
import Verif.Proofs.MachineRun
import Verif.Proofs.Prog

/-! Tree builders among other calls of the program (C68). -/

set_option linter.unusedSimpArgs false
set_option linter.unusedVariables false

set_option autoImplicit false

namespace Dendron
variable {α : Type} {w w' : World α} {a a' a1 b0 : Forest α} {op : Op α} {res : Res} {r c m p n : NodeId} {k j : Nat}
  {t : TreeId} {d : α}

theorem Wide.room_of_roomy {v : World α} {ch : NodeId → List NodeId} (W : Wide w v ch) (R : w.Roomy) : Room w.heap := by
  intro t hta
  obtain ⟨L, hd, hm, h1, h2, h3⟩ := W.locksExact hta
  have hl : L.length ≤ w.heap.nNode := by
    refine nodup_length_le _ L hd fun x hx => ?_
    obtain ⟨hp, -⟩ := (hm x).1 hx
    have : w.heap.alive x = true := by
      rcases Nat.eq_zero_or_pos (w.held .hot x) with e | e
      · exact W.held_alive (k := .frozen) (by omega)
      · exact W.held_alive e
    exact W.shape.bound x this
  have ht := R t
  have hb : (2 : Int) ^ 62 = 4611686018427387904 := by decide
  have hb1 : (2 : Nat) ^ 62 = 4611686018427387904 := by decide
  rw [hb]
  rw [hb1] at ht
  by_cases g1 : w.GrantAlive t
  · have := h1 g1; omega
  · by_cases g2 : w.ProhAlive t
    · have := h2 g2; omega
    · have := h3 g1 g2; omega

/-- Tokens and nodes, as in `World.Roomy`. -/
def Forest.Roomy (a : Forest α) : Prop := ∀ t, a.grantTok t + a.prohTok t + a.newNode < 2 ^ 62

theorem Shows.roomy (S : Shows w a) : w.Roomy ↔ a.Roomy := by
  unfold World.Roomy Forest.Roomy
  rw [S.grantTok, S.prohTok, S.newNode]

/-- A step of the machine is a call of the program. -/
theorem ReachW.play (hr : ReachW w) (S : Shows w a) (R : a.Roomy) (hm : a.May op) (hf : a.Fine op)
    (hu : ∀ p, UsesLast a.children op p → LastRight w.heap a.children p) (st : a.Step op res a') :
    ∃ w', w.exec op = .ok (w', res) ∧ ReachW w' ∧ Shows w' a' := by
  obtain ⟨v, ch, W⟩ := hr.wide
  have hroom := W.room_of_roomy (S.roomy.2 R)
  obtain ⟨w', e, S'⟩ := (W.exact_step S hm hf hu hroom).1 st
  have ha := S.may.1 hm
  refine ⟨w', e, .step hr ⟨ha, fun ch' F => ?_, hroom, e⟩, S'⟩
  obtain rfl := S.children.unique F
  exact ⟨(S.callFits W ha).1 hf, hu⟩

/-- Where `last_child` was right it stays right, and it is right for new nodes. -/
def Calms (w w' : World α) : Prop :=
  ∀ ch ch', FShape w.heap ch → FShape w'.heap ch' → ∀ p, w'.heap.alive p = true →
    (w.heap.alive p = true → LastRight w.heap ch p) → LastRight w'.heap ch' p

theorem Calms.refl (w : World α) : Calms w w := by
  intro ch ch' F F' p ha hl
  obtain rfl := F.unique F'
  exact hl ha

theorem Calms.trans {w1 : World α} (h1 : Calms w w1) (h2 : Calms w1 w') (S : Shows w1 a1) : Calms w w' :=
  fun ch ch' F F' p ha hl => h2 _ ch' S.children F' p ha fun ha1 => h1 ch _ F S.children p ha1 hl

theorem World.StepW.calms (s : w.StepW op w' res) (hr : ReachW w) (S' : Shows w' a') (hd : ∀ ch p, ¬ DropsLast ch op p)
    (hn : ∀ p, w'.heap.alive p = true → w.heap.alive p = false → a'.children p = []) : Calms w w' := by
  intro ch ch' F F' p ha hl
  obtain ⟨v, c0, W⟩ := hr.wide
  obtain rfl := W.shape.unique F
  obtain ⟨v', c1, W', -, hk, -⟩ := s.wide W
  obtain rfl := W'.shape.unique F'
  cases h0 : w.heap.alive p with
  | true => exact hk p h0 ha (hl h0) (hd _ p)
  | false =>
    obtain rfl := S'.children.unique F'
    refine W'.lastRight_of ha fun x hx => ?_
    rw [hn p ha h0] at hx; cases hx

/-- `play`, with the fact about last children. -/
theorem ReachW.playC (hr : ReachW w) (S : Shows w a) (R : a.Roomy) (hm : a.May op) (hf : a.Fine op)
    (hu : ∀ p, UsesLast a.children op p → LastRight w.heap a.children p) (st : a.Step op res a')
    (hd : ∀ ch p, ¬ DropsLast ch op p)
    (hn : ∀ p, a'.data p ≠ none → a.data p = none → a'.children p = []) :
    ∃ w', w.exec op = .ok (w', res) ∧ ReachW w' ∧ Shows w' a' ∧ Calms w w' := by
  obtain ⟨w', e, hr', S'⟩ := hr.play S R hm hf hu st
  obtain ⟨v, ch, W⟩ := hr.wide
  have ha := S.may.1 hm
  have s : w.StepW op w' res := by
    refine ⟨ha, fun ch' F => ?_, W.room_of_roomy (S.roomy.2 R), e⟩
    obtain rfl := S.children.unique F
    exact ⟨(S.callFits W ha).1 hf, hu⟩
  refine ⟨w', e, hr', S', s.calms hr S' hd fun p h1 h2 => hn p (S'.alive.1 h1) ?_⟩
  apply Classical.byContradiction
  intro h
  rw [S.alive.2 h] at h2; cases h2

theorem Forest.sweep_old (p : NodeId) (h1 : a.sweep.data p ≠ none) (h2 : a.data p = none) : a.sweep.children p = [] := by
  refine absurd ?_ h1
  simp only [Forest.sweep]
  split
  · exact h2
  · rfl

/-- In a reachable state everything is held. -/
theorem ReachW.swept (hr : ReachW w) (S : Shows w a) : a.sweep = a := by
  obtain ⟨v, ch, W⟩ := hr.wide
  have S1 : Shows v a := S.simW W.sim
  have I := W.inv
  have e := S1.children.unique I.wf.toFShape
  refine (I.shows_sweep S1.held S1.trees S1.grantTok S1.prohTok S1.newNode S1.newTree ?_ ?_ ?_).unique S1
  · intro x hx
    refine ⟨by rw [S1.data], ?_, by rw [e], S1.tree_of hx⟩
    rw [S1.borrowed, hx]; rfl
  · intro x t hx ht
    rw [S1.tree, hx] at ht; cases ht
  · intro t _
    rw [S1.root]

open Classical in
/-- Nothing vanishes if everything is still held. -/
theorem Forest.sweep_same (h : a.sweep = a) (h1 : b0.data = a.data) (h2 : b0.borrowed = a.borrowed)
    (h3 : b0.children = a.children) (h4 : b0.tree = a.tree) (h5 : b0.root = a.root)
    (hh : ∀ t, a.Holds t → b0.Holds t) : b0.sweep = b0 := by
  have hh' : ∀ n, (∃ t, a.tree n = some t ∧ a.Holds t) → ∃ t, b0.tree n = some t ∧ b0.Holds t := by
    rintro n ⟨t, e, g⟩
    exact ⟨t, by rw [h4]; exact e, hh t g⟩
  have key : ∀ {β : Type} {z : β} (f g : NodeId → β) (e : g = f),
      (fun n => if ∃ t, a.tree n = some t ∧ a.Holds t then f n else z) = f →
      (fun n => if ∃ t, b0.tree n = some t ∧ b0.Holds t then g n else z) = g := by
    rintro β z f _ rfl e
    funext n
    have := congrFun e n
    split
    · rfl
    · rename_i hn
      rw [if_neg (fun hc => hn (hh' n hc))] at this
      exact this
  have kt : (fun t => if b0.Holds t then b0.root t else none) = b0.root := by
    funext t
    have := congrFun (congrArg Forest.root h) t
    simp only [Forest.sweep] at this
    split
    · rfl
    · rename_i hn
      rw [if_neg (fun hc => hn (hh t hc))] at this
      rw [h5]; exact this
  unfold Forest.sweep at h ⊢
  have e1 := congrArg Forest.data h
  have e2 := congrArg Forest.borrowed h
  have e3 := congrArg Forest.children h
  have e4 := congrArg Forest.tree h
  simp only at e1 e2 e3 e4
  have f1 := key _ _ h1 e1
  have f2 := key _ _ h2 e2
  have f3 := key _ _ h3 e3
  have f4 := key _ _ h4 e4
  rw [f1, f2, f3, f4, kt]

/-- Parent and child belong to the same tree. -/
theorem ReachW.tree_mem (hr : ReachW w) (S : Shows w a) (hm : c ∈ a.children p) : a.tree p = a.tree c := by
  obtain ⟨v, ch, W⟩ := hr.wide
  have F := S.children
  have hc := F.alive_of_mem hm
  have hp := F.alive_parent hm
  rw [S.tree_of hc, S.tree_of hp]
  exact (W.fwd.tree.child c p hc (F.parent_of_mem hm)).symm

theorem ReachW.tree_held {q : Kind} (hr : ReachW w) (S : Shows w a) (hk : 0 < a.held q c) :
    ∃ t, a.tree c = some t ∧ a.data c ≠ none := by
  obtain ⟨v, ch, W⟩ := hr.wide
  rw [S.held] at hk
  have ha := W.held_alive hk
  obtain ⟨t, e, -⟩ := W.fwd.tree.live c ha
  exact ⟨t, by rw [S.tree_of ha]; exact e, S.alive.1 ha⟩

/-- Giving one handle of a tree for another keeps everything. -/
theorem Forest.shift_sweep (h : a.sweep = a) (ht : a.tree m = a.tree c) :
    (a.shift c m).sweep = a.shift c m := by
  refine Forest.sweep_same h rfl rfl rfl rfl rfl ?_
  rintro t (g | ⟨k, n, g, e⟩)
  · exact .inl g
  · by_cases hk : k = .hot ∧ n = c
    · obtain ⟨rfl, rfl⟩ := hk
      refine .inr ⟨.hot, m, ?_, ht.trans e⟩
      simp only [Forest.shift, Forest.give, Forest.take]
      split <;> simp_all
    · refine .inr ⟨k, n, ?_, e⟩
      simp only [Forest.shift, Forest.give, Forest.take, if_neg hk]
      split <;> omega

theorem Forest.shift_self : a.shift c c = a := by
  have : (a.shift c c).held = a.held := by
    funext k n
    simp only [Forest.shift, Forest.give, Forest.take]
    split <;> simp_all
  cases a
  simp only [Forest.shift, Forest.give, Forest.take, Forest.mk.injEq] at this ⊢
  simp [this]

theorem Forest.shift_shift (hk : 0 < a.held .hot c) : (a.shift c p).shift p m = a.shift c m := by
  have : ((a.shift c p).shift p m).held = (a.shift c m).held := by
    funext k n
    simp only [Forest.shift, Forest.give, Forest.take]
    by_cases hh : k = .hot
    · subst hh
      by_cases e1 : n = c <;> by_cases e2 : n = p <;> by_cases e3 : n = m <;> simp_all <;> omega
    · simp [hh]
  cases a
  simp only [Forest.shift, Forest.give, Forest.take, Forest.mk.injEq] at this ⊢
  simp [this]

theorem Forest.shift_take (hk : 0 < a.held .hot c) : (a.shift c m).take .hot m = a.take .hot c := by
  have : ((a.shift c m).take .hot m).held = (a.take .hot c).held := by
    funext k n
    simp only [Forest.shift, Forest.give, Forest.take]
    by_cases hh : k = .hot
    · subst hh
      by_cases e1 : n = c <;> by_cases e2 : n = m <;> simp_all
    · simp [hh]
  cases a
  simp only [Forest.shift, Forest.give, Forest.take, Forest.mk.injEq] at this ⊢
  simp [this]

theorem Forest.shift_held (hk : 0 < a.held .hot c) : 0 < (a.shift c m).held .hot m := by
  simp only [Forest.shift, Forest.give, Forest.take]
  by_cases e : m = c <;> simp_all

theorem Forest.Climbs.congr (hc : a'.children = a.children) (h : a'.Climbs r c k m) : a.Climbs r c k m := by
  induction h with
  | here => exact .here _
  | up h1 h2 _ ih => exact .up h1 (by rw [← hc]; exact h2) ih

/-- The parent, if any. -/
theorem Forest.parent_or (a : Forest α) (c : NodeId) : (∃ p, c ∈ a.children p) ∨ a.IsTop c := by
  by_cases h : ∃ p, c ∈ a.children p
  · exact .inl h
  · exact .inr fun p hp => h ⟨p, hp⟩

/-- `nav parent` and `drop`: the cursor goes up. -/
theorem ReachW.go_up (hr : ReachW w) (S : Shows w a) (R : a.Roomy) (hk : 0 < a.held .hot c)
    (hm : c ∈ a.children p) :
    ∃ w1 w2, w.exec (.nav .hot .parent c) = .ok (w1, .node (some p)) ∧
      w1.exec (.drop .hot c) = .ok (w2, .unit) ∧ ReachW w2 ∧ Shows w2 (a.shift c p) ∧ Calms w w2 := by
  obtain ⟨w1, e1, hr1, S1, C1⟩ := hr.playC (op := .nav .hot .parent c) S R hk trivial (fun _ h => h.elim)
    (.navSome (.inl ⟨p, hm, rfl⟩)) (fun _ _ h => h) (fun _ h1 h2 => absurd h2 h1)
  obtain ⟨w2, e2, hr2, S2, C2⟩ := hr1.playC (op := .drop .hot c) S1 R
    (by show 0 < (a.give .hot p).held .hot c; simp only [Forest.give]; split <;> omega) trivial
    (fun _ h => h.elim) (.drop _ _) (fun _ _ h => h) (Forest.sweep_old (a := (a.give .hot p).take .hot c))
  refine ⟨w1, w2, e1, e2, hr2, ?_, C1.trans C2 S1⟩
  have := Forest.shift_sweep (m := p) (c := c) (hr.swept S) (hr.tree_mem S hm)
  rw [← this]; exact S2

theorem ReachW.go_out (hr : ReachW w) (S : Shows w a) (R : a.Roomy) (hk : 0 < a.held .hot c) (hm : a.IsTop c) :
    ∃ w2, w.exec (.nav .hot .parent c) = .ok (w, .node none) ∧
      w.exec (.drop .hot c) = .ok (w2, .unit) ∧ ReachW w2 ∧ Shows w2 (a.take .hot c).sweep ∧ Calms w w2 := by
  obtain ⟨w1, e1, hr1, S1⟩ := hr.play (op := .nav .hot .parent c) S R hk trivial (fun _ h => h.elim)
    (.navNone (.inr ⟨hm, rfl⟩))
  have hw : w1 = w := by
    have e := e1
    simp only [World.exec, bind, Except.bind] at e
    split at e
    · cases e
    · split at e
      · simp only [pure, Except.pure, Except.ok.injEq, Prod.mk.injEq] at e; exact e.1.symm
      · revert e
        simp only [pure, Except.pure]
        split
        · intro e; cases e
        · intro e; simp at e
  subst hw
  obtain ⟨w2, e2, hr2, S2⟩ := hr.playC (op := .drop .hot c) S R hk trivial (fun _ h => h.elim) (.drop _ _)
    (fun _ _ h => h) (Forest.sweep_old (a := a.take .hot c))
  exact ⟨w2, e1, e2, hr2, S2⟩

theorem ReachW.closeLoop (r : NodeId) : ∀ (k : Nat) {w : World α} {a : Forest α} {c : NodeId}, ReachW w → Shows w a →
    a.Roomy → 0 < a.held .hot c →
    (∃ w' m, Builder.closeLoop r k w c = .ok (w', m, true) ∧ ReachW w' ∧ Shows w' (a.shift c m) ∧ a.Climbs r c k m ∧
      Calms w w') ∨
    (∃ w' m j, Builder.closeLoop r k w c = .ok (w', m, false) ∧ ReachW w' ∧ Shows w' (a.shift c m) ∧
      a.Climbs r c j m ∧ j < k ∧ (m = r ∨ a.IsTop m) ∧ Calms w w')
  | 0, w, a, c, hr, S, R, hk => by
    refine .inl ⟨w, c, rfl, hr, ?_, .here c, .refl w⟩
    rw [Forest.shift_self]; exact S
  | k + 1, w, a, c, hr, S, R, hk => by
    by_cases hc : c = r
    · refine .inr ⟨w, c, 0, ?_, hr, by rw [Forest.shift_self]; exact S, .here c, Nat.succ_pos _, .inl hc, .refl w⟩
      simp [Builder.closeLoop, hc]
    · rcases a.parent_or c with ⟨p, hp⟩ | hp
      · obtain ⟨w1, w2, e1, e2, hr2, S2, C2⟩ := hr.go_up S R hk hp
        have step : Builder.closeLoop r (k + 1) w c = Builder.closeLoop r k w2 p := by
          simp only [Builder.closeLoop, if_neg hc, e1, e2, bind, Except.bind]
        rw [step]
        have hk2 := Forest.shift_held (m := p) hk
        rcases ReachW.closeLoop r k hr2 S2 R hk2 with ⟨w', m, f1, f2, f3, f4, fc⟩ | ⟨w', m, j, f1, f2, f3, f4, f5, f6, fc⟩
        · rw [Forest.shift_shift hk] at f3
          exact .inl ⟨w', m, f1, f2, f3, .up hc hp (Forest.Climbs.congr (a' := a.shift c p) rfl f4), C2.trans fc S2⟩
        · rw [Forest.shift_shift hk] at f3
          exact .inr ⟨w', m, j + 1, f1, f2, f3, .up hc hp (Forest.Climbs.congr (a' := a.shift c p) rfl f4), by omega, f6, C2.trans fc S2⟩
      · obtain ⟨w2, e1, -⟩ := hr.go_out S R hk hp
        refine .inr ⟨w, c, 0, ?_, hr, by rw [Forest.shift_self]; exact S, .here c, Nat.succ_pos _, .inr hp, .refl w⟩
        simp only [Builder.closeLoop, if_neg hc, e1, bind, Except.bind, pure, Except.pure]

theorem ReachW.close_builds (hr : ReachW w) (S : Shows w a) (R : a.Roomy) (hk : 0 < a.held .hot c) (k : Nat) :
    ∃ w' b' res a', Builder.close w ⟨some r, some c⟩ (k + 1) = .ok (w', b', res) ∧ ReachW w' ∧ Shows w' a' ∧
      a.Builds ⟨some r, some c⟩ (.close (k + 1)) res a' b' ∧ Calms w w' := by
  have e0 : ∀ {x}, Builder.closeLoop r k w c = x → Builder.close w ⟨some r, some c⟩ (k + 1) =
      (do
        match ← x with
        | (w, c, false) => return (w, ⟨some r, some c⟩, .error .rootClosed)
        | (w, c, true) => do
          match ← w.exec (.nav .hot .parent c) with
          | (w, .node p) => do
            let (w, _) ← w.exec (.drop .hot c)
            return (w, ⟨some r, p⟩, .ok ())
          | _ => .error (.panic "parent returns a node or nothing")) := by
    rintro _ rfl
    simp only [Builder.close, Nat.succ_ne_zero, if_false, Nat.add_sub_cancel]
    rfl
  rcases ReachW.closeLoop r k hr S R hk with ⟨w', m, f1, f2, f3, f4, fc⟩ | ⟨w', m, j, f1, f2, f3, f4, f5, f6, fc⟩
  · have hk2 := Forest.shift_held (m := m) hk
    rcases a.parent_or m with ⟨p, hp⟩ | hp
    · obtain ⟨w1, w2, g1, g2, g3, g4, gc⟩ := f2.go_up f3 R hk2 hp
      rw [Forest.shift_shift hk] at g4
      refine ⟨w2, _, _, _, ?_, g3, g4, .up f4 hp, fc.trans gc f3⟩
      rw [e0 f1]
      simp only [bind, Except.bind, pure, Except.pure, g1, g2]
    · obtain ⟨w2, g1, g2, g3, g4, gc⟩ := f2.go_out f3 R hk2 hp
      rw [Forest.shift_take hk] at g4
      refine ⟨w2, _, _, _, ?_, g3, g4, .out f4 hp, fc.trans gc f3⟩
      rw [e0 f1]
      simp only [bind, Except.bind, pure, Except.pure, g1, g2]
  · refine ⟨w', _, _, _, ?_, f2, f3, .tooFar f4 f5 f6, fc⟩
    rw [e0 f1]
    simp only [bind, Except.bind, pure, Except.pure]

theorem ReachW.opn_builds (hr : ReachW w) (S : Shows w a) (R : ∀ t, a.grantTok t + a.prohTok t + a.newNode + 1 < 2 ^ 62)
    (hk : 0 < a.held .hot c) (hl : LastRight w.heap a.children c) (d : α) :
    ∃ w' b' res a', Builder.opn w ⟨some r, some c⟩ d = .ok (w', b', res) ∧ ReachW w' ∧ Shows w' a' ∧
      a.Builds ⟨some r, some c⟩ (.opn d) res a' b' ∧ Calms w w' := by
  obtain ⟨t, ht, hd⟩ := hr.tree_held S hk
  have R0 : a.Roomy := fun t => by have := R t; omega
  have nochild : a.children a.newNode = [] := by
    have := S.children.fresh_not_alive
    rw [← S.newNode] at this
    exact S.children.dead _ this
  have hne : c ≠ a.newNode := by
    rintro rfl
    have := S.children.bound a.newNode (S.alive.2 hd)
    rw [S.newNode] at this; exact absurd this (Nat.lt_irrefl _)
  obtain ⟨w1, e1, hr1, S1, C1⟩ := hr.playC (op := .create .hot c d .lastChild) S R0 hk trivial
    (by
      rintro p ⟨l1, l2, hs, -⟩
      cases hs; exact hl)
    (.create (au := .hot) (as := .lastChild) trivial ht (.last c)) (fun _ _ h => h)
    (by
      intro p h1 h2
      replace h1 : upd a.data a.newNode (some d) p ≠ none := h1
      by_cases hp : p = a.newNode
      · subst hp
        show upd a.children c _ a.newNode = []
        rw [upd_ne _ _ (Ne.symm hne)]; exact nochild
      · rw [upd_ne _ _ hp] at h1; exact absurd h2 h1)
  have R1 : Forest.Roomy (((a.addNode d t).setChildren c (a.children c ++ [a.newNode])).give .hot a.newNode) :=
    fun t => by have := R t; simp only [Forest.give, Forest.setChildren, Forest.addNode]; omega
  obtain ⟨w2, e2, hr2, S2, C2⟩ := hr1.playC (op := .drop .hot c) S1 R1
    (by
      show 0 < Forest.held (Forest.give _ .hot _) .hot c
      simp only [Forest.give, Auth.kind]
      split
      · exact Nat.succ_pos _
      · exact hk) trivial
    (fun _ h => h.elim) (.drop _ _) (fun _ _ h => h) (fun p h1 h2 => Forest.sweep_old p h1 h2)
  refine ⟨w2, _, .ok (), _, ?_, hr2, ?_, .child d ht, C1.trans C2 S1⟩
  · simp only [Builder.opn, e1, e2, bind, Except.bind, pure, Except.pure]
  · have h0 := hr1.swept S1
    have : Forest.sweep (Forest.take (Forest.give ((a.addNode d t).setChildren c (a.children c ++ a.newNode :: []))
        .hot a.newNode) .hot c) = Forest.take (Forest.give ((a.addNode d t).setChildren c (a.children c ++ a.newNode :: []))
        .hot a.newNode) .hot c := by
      refine Forest.sweep_same h0 rfl rfl rfl rfl rfl ?_
      rintro u (g | ⟨k, n, g, e⟩)
      · exact .inl g
      · by_cases hkn : k = .hot ∧ n = c
        · obtain ⟨rfl, rfl⟩ := hkn
          refine .inr ⟨.hot, a.newNode, ?_, ?_⟩
          · simp [Forest.take, Forest.give, Ne.symm hne]
          · show upd a.tree a.newNode (some t) a.newNode = some u
            replace e : upd a.tree a.newNode (some t) n = some u := e
            rw [upd_ne _ _ hne, ht] at e
            rw [upd_same]; exact e
        · refine .inr ⟨k, n, ?_, e⟩
          simp only [Forest.take, if_neg hkn]
          exact g
    show Shows w2 (Forest.take (Forest.give ((a.addNode d t).setChildren c (a.children c ++ a.newNode :: []))
        .hot a.newNode) .hot c)
    rw [← this]; exact S2

theorem ReachW.opn_first (hr : ReachW w) (S : Shows w a) (R : ∀ t, a.grantTok t + a.prohTok t + a.newNode + 1 < 2 ^ 62)
    (d : α) :
    ∃ w' b' res a', Builder.opn w ⟨none, none⟩ d = .ok (w', b', res) ∧ ReachW w' ∧ Shows w' a' ∧
      a.Builds ⟨none, none⟩ (.opn d) res a' b' ∧ Calms w w' := by
  have R0 : a.Roomy := fun t => by have := R t; omega
  have nochild : a.children a.newNode = [] := by
    have := S.children.fresh_not_alive
    rw [← S.newNode] at this
    exact S.children.dead _ this
  obtain ⟨w1, e1, hr1, S1, C1⟩ := hr.playC (op := .newTree true d) S R0 trivial trivial (fun _ h => h.elim) (.newTree true d)
    (fun _ _ h => h)
    (by
      intro p h1 h2
      replace h1 : upd a.data a.newNode (some d) p ≠ none := h1
      by_cases hp : p = a.newNode
      · subst hp; exact nochild
      · rw [upd_ne _ _ hp] at h1; exact absurd h2 h1)
  have R1 : Forest.Roomy (((a.addNode d a.newTree).addTree a.newNode).give .hot a.newNode) :=
    fun t => by have := R t; simp only [Forest.give, Forest.addTree, Forest.addNode]; omega
  obtain ⟨w2, e2, hr2, S2, C2⟩ := hr1.playC (op := .plainOf .hot a.newNode) S1 R1
    ⟨by decide, by simp [Forest.give]⟩ trivial (fun _ h => h.elim) (.plainOf _ _) (fun _ _ h => h)
    (fun _ h1 h2 => absurd h2 h1)
  refine ⟨w2, _, .ok (), _, ?_, hr2, S2, .first d, C1.trans C2 S1⟩
  simp only [Builder.opn, e1, e2, bind, Except.bind, pure, Except.pure]

/-- The handles a builder needs. -/
structure Builder.Owned (b : Builder) (w : World α) : Prop where
  root : ∀ r, b.root = some r → 0 < w.held .plain r
  cur : ∀ c, b.cur = some c → 0 < w.held .hot c
  both : b.root = none → b.cur = none

theorem ReachW.push_builds {b : Builder} {e : Event α} (hr : ReachW w) (S : Shows w a) (R : w.Spare) (ho : b.Owned w)
    (hl : ∀ c d, b.cur = some c → e = .opn d → LastRight w.heap a.children c) :
    ∃ w' b' res a', Builder.push w b e = .ok (w', b', res) ∧ ReachW w' ∧ Shows w' a' ∧ a.Builds b e res a' b' ∧
      Calms w w' := by
  have R1 : ∀ t, a.grantTok t + a.prohTok t + a.newNode + 1 < 2 ^ 62 := by
    intro t; rw [S.grantTok, S.prohTok, S.newNode]; exact R t
  have R0 : a.Roomy := fun t => by have := R1 t; omega
  obtain ⟨ro, cu⟩ := b
  obtain ⟨h1, h2, h3⟩ := ho
  cases e with
  | opn d =>
    cases ro with
    | none =>
      obtain rfl : cu = none := h3 rfl
      exact hr.opn_first S R1 d
    | some r =>
      cases cu with
      | none => exact ⟨w, _, _, a, rfl, hr, S, .closed d, .refl w⟩
      | some c => exact hr.opn_builds S R1 (by rw [S.held]; exact h2 c rfl) (hl c d rfl rfl) d
  | close k =>
    cases k with
    | zero => exact ⟨w, _, _, a, rfl, hr, S, .nothing, .refl w⟩
    | succ k =>
      cases ro with
      | none =>
        obtain rfl : cu = none := h3 rfl
        exact ⟨w, _, _, a, rfl, hr, S, .early, .refl w⟩
      | some r =>
        cases cu with
        | none => exact ⟨w, _, _, a, rfl, hr, S, .over, .refl w⟩
        | some c => exact hr.close_builds S R0 (by rw [S.held]; exact h2 c rfl) k

/-! ### `with_root`, `finish`, `drop` -/

theorem ReachW.with_root (hr : ReachW w) (S : Shows w a) (R : w.Spare) (hk : 0 < w.held .hot n) :
    ∃ w', Builder.withRoot w n = .ok (w', ⟨some n, some n⟩) ∧ ReachW w' ∧ Shows w' (a.give .plain n) := by
  have R0 : a.Roomy := S.roomy.1 fun t => by have := R t; omega
  obtain ⟨w1, e1, hr1, S1⟩ := hr.play (op := .plainOf .hot n) S R0 ⟨by decide, by rw [S.held]; exact hk⟩ trivial
    (fun _ h => h.elim) (.plainOf _ _)
  exact ⟨w1, by simp only [Builder.withRoot, e1, bind, Except.bind, pure, Except.pure], hr1, S1⟩

theorem ReachW.drop_hot {o : Option NodeId} (hr : ReachW w) (S : Shows w a) (R : a.Roomy)
    (hk : ∀ c, o = some c → 0 < w.held .hot c) :
    ∃ w', Builder.dropOpt w .hot o = .ok w' ∧ ReachW w' ∧ Shows w' (a.dropHot o) := by
  cases o with
  | none => exact ⟨w, rfl, hr, S⟩
  | some c =>
    obtain ⟨w1, e1, hr1, S1⟩ := hr.play (op := .drop .hot c) S R (by show 0 < a.held _ _; rw [S.held]; exact hk c rfl) trivial
      (fun _ h => h.elim) (.drop _ _)
    exact ⟨w1, by simp only [Builder.dropOpt, e1, bind, Except.bind, pure, Except.pure], hr1, S1⟩

theorem ReachW.drop_plain {o : Option NodeId} (hr : ReachW w) (S : Shows w a) (R : a.Roomy)
    (hk : ∀ c, o = some c → 0 < w.held .plain c) :
    ∃ w', Builder.dropOpt w .plain o = .ok w' ∧ ReachW w' ∧ Shows w' (a.dropPlain o) := by
  cases o with
  | none => exact ⟨w, rfl, hr, S⟩
  | some c =>
    obtain ⟨w1, e1, hr1, S1⟩ := hr.play (op := .drop .plain c) S R (by show 0 < a.held _ _; rw [S.held]; exact hk c rfl) trivial
      (fun _ h => h.elim) (.drop _ _)
    exact ⟨w1, by simp only [Builder.dropOpt, e1, bind, Except.bind, pure, Except.pure], hr1, S1⟩

theorem ReachW.finish_builds {b : Builder} (hr : ReachW w) (S : Shows w a) (R : w.Spare) (ho : b.Owned w) :
    ∃ w', Builder.finish w b = .ok (w', match b.root with | some r => .ok r | none => .error .rootNotOpened) ∧
      ReachW w' ∧ Shows w' (a.dropHot b.cur) := by
  have R0 : a.Roomy := S.roomy.1 fun t => by have := R t; omega
  obtain ⟨w1, e1, hr1, S1⟩ := hr.drop_hot S R0 ho.cur
  refine ⟨w1, ?_, hr1, S1⟩
  simp only [Builder.finish, e1, bind, Except.bind, pure, Except.pure]
  cases b.root <;> rfl

theorem ReachW.drop_builds {b : Builder} (hr : ReachW w) (S : Shows w a) (R : w.Spare) (ho : b.Owned w) :
    ∃ w', Builder.dropAll w b = .ok w' ∧ ReachW w' ∧ Shows w' ((a.dropPlain b.root).dropHot b.cur) := by
  have R0 : a.Roomy := S.roomy.1 fun t => by have := R t; omega
  obtain ⟨w1, e1, hr1, S1⟩ := hr.drop_plain S R0 ho.root
  have hh : ∀ c, w1.held .hot c = w.held .hot c := by
    intro c
    rw [← S1.held, ← S.held]
    cases b.root <;> simp [Forest.dropPlain, Forest.sweep, Forest.take]
  obtain ⟨w2, e2, hr2, S2⟩ := hr1.drop_hot (o := b.cur) S1 (by
    intro t
    have := R0 t
    cases b.root <;> exact this) (fun c e => by rw [hh]; exact ho.cur c e)
  refine ⟨w2, ?_, hr2, S2⟩
  simp only [Builder.dropAll, e1, e2, bind, Except.bind]

/-! ### Counting the handles -/

theorem Builder.share_split (l1 l2 : List Builder) (b : Builder) (k : Kind) (n : NodeId) :
    Builder.share (l1 ++ b :: l2) k n = Builder.share (l1 ++ l2) k n + Builder.share [b] k n := by
  cases k <;> simp [Builder.share, List.countP_append, List.countP_cons] <;> omega

theorem Builder.owned_of {b : Builder} (h : ∀ k n, Builder.share [b] k n ≤ w.held k n)
    (hb : b.root = none → b.cur = none) : b.Owned w := by
  refine ⟨fun r e => ?_, fun c e => ?_, hb⟩
  · have := h .plain r; simp [Builder.share, e] at this; exact this
  · have := h .hot c; simp [Builder.share, e] at this; exact this

/-- A builder exchanges its own handles only. -/
theorem Forest.Builds.held {b b' : Builder} {e : Event α} {res : Except BuildError Unit}
    (h : a.Builds b e res a' b') (ho : ∀ k n, Builder.share [b] k n ≤ a.held k n) :
    (∀ k n, a'.held k n + Builder.share [b] k n = a.held k n + Builder.share [b'] k n) ∧
      (b'.root = none → b'.cur = none ∨ b' = b) := by
  have hs : ∀ {r c m : NodeId} (k : Kind) (n : NodeId), 0 < a.held .hot c →
      (a.shift c m).held k n + Builder.share [⟨some r, some c⟩] k n =
        a.held k n + Builder.share [⟨some r, some m⟩] k n := by
    intro r c m k n hk
    cases k <;> simp only [Forest.shift, Forest.give, Forest.take, Builder.share, List.countP_cons, List.countP_nil,
      beq_iff_eq, Option.some.injEq] <;> simp
    by_cases e1 : c = n
    · subst e1; by_cases e2 : c = m <;> simp_all [eq_comm] <;> omega
    · have e1' : ¬ n = c := fun h => e1 h.symm
      by_cases e2 : n = m
      · subst e2; simp [e1, e1']
      · have e2' : ¬ m = n := fun h => e2 h.symm
        simp [e1, e1', e2, e2']
  have hcur : ∀ {r c : NodeId}, b = ⟨some r, some c⟩ → 0 < a.held .hot c := by
    rintro r c rfl
    have := ho .hot c; simp [Builder.share] at this; exact this
  cases h with
  | first d =>
    refine ⟨fun k n => ?_, fun h => by cases h⟩
    by_cases e1 : n = a.newNode
    · subst e1
      cases k <;> simp [Builder.share, Forest.give, Forest.addTree, Forest.addNode, List.countP_cons]
    · cases k <;> simp [Builder.share, Forest.give, Forest.addTree, Forest.addNode, List.countP_cons, e1, Ne.symm e1]
  | child d ht => exact ⟨fun k n => hs k n (hcur rfl), fun h => by cases h⟩
  | closed d => exact ⟨fun _ _ => rfl, fun h => by cases h⟩
  | nothing => exact ⟨fun _ _ => rfl, fun _ => .inr rfl⟩
  | up _ _ => exact ⟨fun k n => hs k n (hcur rfl), fun h => by cases h⟩
  | @out r c m k _ _ =>
    refine ⟨fun k n => ?_, fun h => by cases h⟩
    have := hcur rfl
    cases k <;> simp only [Forest.sweep, Forest.take, Builder.share, List.countP_cons, List.countP_nil,
      beq_iff_eq, Option.some.injEq] <;> simp
    by_cases e1 : n = c
    · subst e1; simp; omega
    · simp [e1, Ne.symm e1]
  | tooFar _ _ _ => exact ⟨fun k n => hs k n (hcur rfl), fun h => by cases h⟩
  | over => exact ⟨fun _ _ => rfl, fun h => by cases h⟩
  | early => exact ⟨fun _ _ => rfl, fun _ => .inr rfl⟩

/-- What holds of every program with builders. -/
structure WithBuilders (w : World α) (bs : List Builder) : Prop where
  reach : ReachW w
  share : ∀ k n, Builder.share bs k n ≤ w.held k n
  both : ∀ b ∈ bs, b.root = none → b.cur = none

theorem WithBuilders.owned {l1 l2 : List Builder} {b : Builder} (h : WithBuilders w (l1 ++ b :: l2)) : b.Owned w := by
  refine Builder.owned_of (fun k n => ?_) (h.both b (by simp))
  have := h.share k n
  rw [Builder.share_split] at this; omega

theorem Shows.exists (hr : ReachW w) : ∃ a, Shows w a := by
  obtain ⟨v, ch, W⟩ := hr.wide
  exact ⟨_, W.shape.view⟩

theorem Forest.dropHot_held {o : Option NodeId} (k : Kind) (n : NodeId) (hk : ∀ c, o = some c → 0 < a.held .hot c) :
    (a.dropHot o).held k n + Builder.share [⟨none, o⟩] k n = a.held k n := by
  cases o with
  | none => cases k <;> simp [Forest.dropHot, Builder.share]
  | some c =>
    have := hk c rfl
    cases k <;> simp [Forest.dropHot, Forest.sweep, Forest.take, Builder.share, List.countP_cons]
    by_cases e1 : n = c
    · subst e1; simp; omega
    · simp [e1, Ne.symm e1]

theorem Forest.dropPlain_held {o q : Option NodeId} (k : Kind) (n : NodeId)
    (hk : ∀ c, o = some c → 0 < a.held .plain c) :
    (a.dropPlain o).held k n + Builder.share [⟨o, q⟩] k n = a.held k n + Builder.share [⟨none, q⟩] k n := by
  cases o with
  | none => cases k <;> simp [Forest.dropPlain, Builder.share]
  | some c =>
    have := hk c rfl
    cases k <;> simp [Forest.dropPlain, Forest.sweep, Forest.take, Builder.share, List.countP_cons]
    by_cases e1 : n = c
    · subst e1; simp; omega
    · simp [e1, Ne.symm e1]

theorem WithBuilders.push {l1 l2 : List Builder} {b b' : Builder} {e : Event α} {res : Except BuildError Unit}
    (h : WithBuilders w (l1 ++ b :: l2)) (S : Shows w a) (hr' : ReachW w') (S' : Shows w' a')
    (hb : a.Builds b e res a' b') : WithBuilders w' (l1 ++ b' :: l2) := by
  have hsh : ∀ k n, Builder.share [b] k n ≤ a.held k n := by
    intro k n
    have := h.share k n
    rw [Builder.share_split] at this
    rw [S.held]; omega
  obtain ⟨g1, g2⟩ := hb.held hsh
  refine ⟨hr', fun k n => ?_, ?_⟩
  · have := h.share k n
    rw [Builder.share_split] at this ⊢
    have g := g1 k n
    rw [S.held, S'.held] at g
    omega
  · intro x hx hroot
    rcases List.mem_append.1 hx with hx | hx
    · exact h.both x (by simp [hx]) hroot
    · rcases List.mem_cons.1 hx with rfl | hx
      · rcases g2 hroot with g | g
        · exact g
        · rw [g] at hroot ⊢; exact h.both b (by simp) hroot
      · exact h.both x (by simp [hx]) hroot

theorem ReachB.inv {bs : List Builder} (h : ReachB w bs) : WithBuilders w bs := by
  induction h with
  | init => exact ⟨.init, fun k n => by cases k <;> exact Nat.zero_le _, fun b hb => by cases hb⟩
  | call _ s hs ih => exact ⟨.step ih.reach s, hs, ih.both⟩
  | new _ ih =>
    refine ⟨ih.reach, fun k n => ?_, ?_⟩
    · have := ih.share k n
      cases k <;> simpa [Builder.share, Builder.new, List.countP_cons] using this
    · intro b hb hr
      rcases List.mem_cons.1 hb with rfl | hb
      · rfl
      · exact ih.both b hb hr
  | @withRoot w w' bs b n _ R hk e ih =>
    obtain ⟨a, S⟩ := Shows.exists ih.reach
    obtain ⟨w1, e1, hr1, S1⟩ := ih.reach.with_root S R (n := n) (by omega)
    rw [e] at e1
    simp only [Except.ok.injEq, Prod.mk.injEq] at e1
    obtain ⟨rfl, rfl⟩ := e1
    refine ⟨hr1, fun k m => ?_, ?_⟩
    · have := ih.share k m
      have hh : w'.held k m = if k = .plain ∧ m = n then w.held k m + 1 else w.held k m := by
        rw [← S1.held, ← S.held]; rfl
      rw [hh]
      cases k
      · simp only [Builder.share, List.countP_cons, beq_iff_eq, Option.some.injEq] at this ⊢
        by_cases e1 : m = n
        · subst e1; simp; omega
        · simp [e1, Ne.symm e1]; omega
      · simp only [Builder.share, List.countP_cons, beq_iff_eq, Option.some.injEq] at this hk ⊢
        by_cases e1 : m = n
        · subst e1; simp; omega
        · simp [e1, Ne.symm e1]; omega
      · simp [Builder.share]
    · intro b hb hr
      rcases List.mem_cons.1 hb with rfl | hb
      · cases hr
      · exact ih.both b hb hr
  | @push w w' l1 l2 b b' e res _ R hl run ih =>
    obtain ⟨a, S⟩ := Shows.exists ih.reach
    obtain ⟨w1, b1, res1, a1, e1, hr1, S1, hb, -⟩ := ih.reach.push_builds (e := e) S R ih.owned
      (fun c d hc he => hl c d hc he _ S.children)
    rw [run] at e1
    simp only [Except.ok.injEq, Prod.mk.injEq] at e1
    obtain ⟨rfl, rfl, rfl⟩ := e1
    exact ih.push S hr1 S1 hb
  | @finish w w' l1 l2 b res _ R run ih =>
    obtain ⟨a, S⟩ := Shows.exists ih.reach
    obtain ⟨w1, e1, hr1, S1⟩ := ih.reach.finish_builds S R ih.owned
    rw [run] at e1
    simp only [Except.ok.injEq, Prod.mk.injEq] at e1
    obtain ⟨rfl, -⟩ := e1
    refine ⟨hr1, fun k n => ?_, fun x hx => ih.both x (by
      rcases List.mem_append.1 hx with hx | hx <;> simp [hx])⟩
    have h1 := ih.share k n
    rw [Builder.share_split] at h1
    have h2 := Forest.dropHot_held (a := a) (o := b.cur) k n (fun c hc => by rw [S.held]; exact ih.owned.cur c hc)
    rw [S.held, S1.held] at h2
    have h3 : Builder.share [⟨none, b.cur⟩] k n ≤ Builder.share [b] k n := by
      cases k <;> simp [Builder.share, List.countP_cons]
    omega
  | @drop w w' l1 l2 b _ R run ih =>
    obtain ⟨a, S⟩ := Shows.exists ih.reach
    obtain ⟨w1, e1, hr1, S1⟩ := ih.reach.drop_builds S R ih.owned
    rw [run] at e1
    cases e1
    refine ⟨hr1, fun k n => ?_, fun x hx => ih.both x (by
      rcases List.mem_append.1 hx with hx | hx <;> simp [hx])⟩
    have h1 := ih.share k n
    rw [Builder.share_split] at h1
    have h2 := Forest.dropPlain_held (a := a) (o := b.root) (q := b.cur) k n
      (fun c hc => by rw [S.held]; exact ih.owned.root c hc)
    have h4 := Forest.dropHot_held (a := a.dropPlain b.root) (o := b.cur) k n (fun c hc => by
      have := ih.owned.cur c hc
      rw [← S.held] at this
      cases b.root <;> simpa [Forest.dropPlain, Forest.sweep, Forest.take] using this)
    rw [S.held] at h2
    rw [S1.held] at h4
    have : Builder.share [⟨b.root, b.cur⟩] k n = Builder.share [b] k n := rfl
    omega

/-! ### Determinism -/

theorem Forest.Climbs.det (L : FShape w.heap a.children) (h1 : a.Climbs r c k m) {m' : NodeId}
    (h2 : a.Climbs r c k m') : m' = m := by
  induction h1 with
  | here => cases h2; rfl
  | up _ hp _ ih =>
    cases h2 with
    | up _ hp' h2 =>
      obtain rfl := L.unique_parent hp hp'
      exact ih h2

theorem Forest.Climbs.blocked (L : FShape w.heap a.children) (h1 : a.Climbs r c j m) (hm : m = r ∨ a.IsTop m)
    {m' : NodeId} (h2 : a.Climbs r c k m') : k ≤ j := by
  induction h1 generalizing k with
  | here =>
    cases h2 with
    | here => exact Nat.le_refl _
    | up hc hp _ =>
      rcases hm with e | e
      · exact absurd e hc
      · exact absurd hp (e _)
  | up _ hp _ ih =>
    cases h2 with
    | here => exact Nat.zero_le _
    | up _ hp' h2 =>
      obtain rfl := L.unique_parent hp hp'
      have := ih hm h2; omega

theorem Forest.Builds.det {b b1 b2 : Builder} {e : Event α} {r1 r2 : Except BuildError Unit} {a1 a2 : Forest α}
    (L : FShape w.heap a.children) (h1 : a.Builds b e r1 a1 b1) (h2 : a.Builds b e r2 a2 b2) :
    r1 = r2 ∧ a1 = a2 ∧ b1 = b2 := by
  have par : ∀ {x p q : NodeId}, x ∈ a.children p → x ∈ a.children q → p = q := fun h1 h2 => L.unique_parent h1 h2
  cases h1 with
  | first d => cases h2; exact ⟨rfl, rfl, rfl⟩
  | child d ht =>
    cases h2 with
    | child _ ht' => rw [ht] at ht'; cases ht'; exact ⟨rfl, rfl, rfl⟩
  | closed d => cases h2; exact ⟨rfl, rfl, rfl⟩
  | nothing => cases h2; exact ⟨rfl, rfl, rfl⟩
  | up hc hm =>
    cases h2 with
    | up hc' hm' =>
      obtain rfl := hc.det L hc'
      obtain rfl := par hm hm'
      exact ⟨rfl, rfl, rfl⟩
    | out hc' ht =>
      obtain rfl := hc.det L hc'
      exact absurd hm (ht _)
    | tooFar hc' hj ht => have := hc'.blocked L ht hc; omega
  | out hc hm =>
    cases h2 with
    | up hc' hm' =>
      obtain rfl := hc.det L hc'
      exact absurd hm' (hm _)
    | out hc' ht => exact ⟨rfl, rfl, rfl⟩
    | tooFar hc' hj ht => have := hc'.blocked L ht hc; omega
  | tooFar hc hj hm =>
    cases h2 with
    | up hc' hm' => have := hc.blocked L hm hc'; omega
    | out hc' ht => have := hc.blocked L hm hc'; omega
    | tooFar hc' hj' ht =>
      have g1 := hc.blocked L hm hc'
      have g2 := hc'.blocked L ht hc
      obtain rfl := Nat.le_antisymm g1 g2
      obtain rfl := hc.det L hc'
      exact ⟨rfl, rfl, rfl⟩
  | over => cases h2; exact ⟨rfl, rfl, rfl⟩
  | early => cases h2; exact ⟨rfl, rfl, rfl⟩

end Dendron
