import Verif.Spec.Undo
import Verif.Proofs.LocalSwap

/-! Calls that undo each other (C70). -/

set_option linter.unusedSimpArgs false
set_option linter.unusedVariables false

set_option autoImplicit false

namespace Dendron
variable {α : Type} {w w' w1 w2 : World α} {a b c a' b' a1 a2 : Forest α} {op op1 op2 : Op α} {r r' r1 r2 : Res}
  {n m p q x : NodeId} {k : Kind} {t u nt : TreeId} {d : α} {l l1 l2 : List NodeId}

/-- A step of the machine is a call. -/
theorem ReachW.call (hr : ReachW w) (S : Shows w a) (R : a.Roomy) (hm : a.May op) (hf : a.Fine op)
    (hu : ∀ p, UsesLast a.children op p → LastRight w.heap a.children p) (st : a.Step op r a') :
    ∃ w', w.StepW op w' r ∧ Shows w' a' := by
  obtain ⟨w', e, -, S'⟩ := hr.play S R hm hf hu st
  obtain ⟨v, ch, W⟩ := hr.wide
  have ha := S.may.1 hm
  refine ⟨w', ⟨ha, fun ch' F => ?_, W.room_of_roomy (S.roomy.2 R), e⟩, S'⟩
  obtain rfl := S.children.unique F
  exact ⟨(S.callFits W ha).1 hf, hu⟩

theorem Shows.roomy_step (S : Shows w a) (R : w.Spare) (st : a.Step op r a') : a'.Roomy := by
  intro t
  have h1 := st.sum t
  have h2 := R t
  rw [← S.grantTok, ← S.prohTok, ← S.newNode] at h2
  exact Nat.lt_of_le_of_lt h1 h2

namespace Forest

theorem ext' (h1 : b.data = a.data) (h2 : b.borrowed = a.borrowed) (h3 : b.children = a.children)
    (h4 : b.tree = a.tree) (h5 : b.root = a.root) (h6 : b.newNode = a.newNode) (h7 : b.newTree = a.newTree)
    (h8 : b.held = a.held) (h9 : b.trees = a.trees) (h10 : b.grantTok = a.grantTok) (h11 : b.prohTok = a.prohTok) :
    b = a := by
  cases a; cases b
  simp only at h1 h2 h3 h4 h5 h6 h7 h8 h9 h10 h11
  subst h1; subst h2; subst h3; subst h4; subst h5; subst h6; subst h7; subst h8; subst h9; subst h10; subst h11
  rfl

theorem Tidy.holds_of (T : a.Tidy) (e : a.tree n = some t) : a.Holds t := by
  rcases T.exist t with h | ⟨-, h⟩
  · exact h
  · exact absurd e (h n)

/-- The state is the old one, and a node `x` which is a tree of its own. -/
structure Extra (a b : Forest α) (x : NodeId) (nt : TreeId) : Prop where
  fresh : a.tree x = none
  new : a.newTree ≤ nt
  data : ∀ n, n ≠ x → b.data n = a.data n
  borrowed : ∀ n, n ≠ x → b.borrowed n = a.borrowed n
  children : ∀ n, n ≠ x → b.children n = a.children n
  tree : ∀ n, n ≠ x → b.tree n = a.tree n
  own : b.tree x = some nt
  root : ∀ t, t ≠ nt → b.root t = a.root t
  trees : b.trees = a.trees
  grantTok : b.grantTok = a.grantTok
  prohTok : b.prohTok = a.prohTok

/-- If nothing refers to it, `x` vanishes. -/
theorem Extra.gone (E : Extra a b x nt) (T : a.Tidy) (hh : b.held = a.held) :
    b.sweep = a.renew b.newNode b.newTree := by
  have nb : ¬ b.Holds nt := by
    rintro (h | ⟨k, n, h, e⟩)
    · rw [E.trees, T.noTree nt E.new] at h; exact absurd h (Nat.lt_irrefl _)
    · by_cases hx : n = x
      · subst hx; rw [hh, T.heldIn k n E.fresh] at h; exact absurd h (Nat.lt_irrefl _)
      · rw [E.tree n hx] at e
        exact absurd (T.bound e) (Nat.not_lt.2 E.new)
  have hb : ∀ t, a.Holds t → b.Holds t := by
    rintro t (h | ⟨k, n, h, e⟩)
    · exact .inl (by rw [E.trees]; exact h)
    · have hx : n ≠ x := by rintro rfl; rw [E.fresh] at e; cases e
      exact .inr ⟨k, n, by rw [hh]; exact h, by rw [E.tree n hx]; exact e⟩
  have key : ∀ n, (∃ t, b.tree n = some t ∧ b.Holds t) ↔ a.tree n ≠ none := by
    intro n
    by_cases hx : n = x
    · subst hx
      constructor
      · rintro ⟨t, e, h⟩; rw [E.own] at e; cases e; exact absurd h nb
      · intro h; exact absurd E.fresh h
    · rw [E.tree n hx]
      constructor
      · rintro ⟨t, e, -⟩ h; rw [e] at h; cases h
      · intro h
        cases e : a.tree n with
        | none => exact absurd e h
        | some t => exact ⟨t, rfl, hb t (T.holds_of e)⟩
  have fld : ∀ {β : Type} {z : β} (f g : NodeId → β), (∀ n, n ≠ x → g n = f n) → (∀ n, a.tree n = none → f n = z) →
      ∀ n, (a.tree n ≠ none → g n = f n) ∧ (a.tree n = none → f n = z) := by
    intro β z f g h1 h2 n
    exact ⟨fun h => h1 n fun e => h (e ▸ E.fresh), h2 n⟩
  refine ext' ?_ ?_ ?_ ?_ ?_ rfl rfl hh E.trees E.grantTok E.prohTok
  · funext n
    obtain ⟨h1, h2⟩ := fld a.data b.data E.data (fun n h => (T.dead n).2 h) n
    simp only [sweep]
    split
    · exact h1 ((key n).1 ‹_›)
    · refine (h2 (Classical.byContradiction fun h => ?_)).symm; exact ‹¬ _› ((key n).2 h)
  · funext n
    obtain ⟨h1, h2⟩ := fld a.borrowed b.borrowed E.borrowed T.free n
    simp only [sweep]
    split
    · exact h1 ((key n).1 ‹_›)
    · refine (h2 (Classical.byContradiction fun h => ?_)).symm; exact ‹¬ _› ((key n).2 h)
  · funext n
    obtain ⟨h1, h2⟩ := fld a.children b.children E.children T.leaf n
    simp only [sweep]
    split
    · exact h1 ((key n).1 ‹_›)
    · refine (h2 (Classical.byContradiction fun h => ?_)).symm; exact ‹¬ _› ((key n).2 h)
  · funext n
    obtain ⟨h1, h2⟩ := fld a.tree b.tree E.tree (fun n h => h) n
    simp only [sweep]
    split
    · exact h1 ((key n).1 ‹_›)
    · refine (h2 (Classical.byContradiction fun h => ?_)).symm; exact ‹¬ _› ((key n).2 h)
  · funext t
    simp only [sweep]
    by_cases e : t = nt
    · subst e
      rw [if_neg nb]; exact (T.noRoot t E.new).symm
    · rcases T.exist t with h | ⟨h, -⟩
      · rw [if_pos (hb t h)]; exact E.root t e
      · split
        · exact E.root t e
        · exact h.symm

/-- If there is a handle to it, `x` stays. -/
theorem Extra.stays (E : Extra a b x nt) (T : a.Tidy) (hh : ∀ k n, a.held k n ≤ b.held k n)
    (hx : ∃ k, 0 < b.held k x) : b.sweep = b := by
  have nb : b.Holds nt := by
    obtain ⟨k, h⟩ := hx
    exact .inr ⟨k, x, h, E.own⟩
  have hb : ∀ t, a.Holds t → b.Holds t := by
    rintro t (h | ⟨k, n, h, e⟩)
    · exact .inl (by rw [E.trees]; exact h)
    · have hx : n ≠ x := by rintro rfl; rw [E.fresh] at e; cases e
      exact .inr ⟨k, n, Nat.lt_of_lt_of_le h (hh k n), by rw [E.tree n hx]; exact e⟩
  have key : ∀ n, (∃ t, b.tree n = some t ∧ b.Holds t) ∨ n ≠ x ∧ a.tree n = none := by
    intro n
    by_cases hx : n = x
    · subst hx; exact .inl ⟨nt, E.own, nb⟩
    · cases e : a.tree n with
      | none => exact .inr ⟨hx, rfl⟩
      | some t => exact .inl ⟨t, by rw [E.tree n hx]; exact e, hb t (T.holds_of e)⟩
  refine ext' ?_ ?_ ?_ ?_ ?_ rfl rfl rfl rfl rfl rfl
  · funext n
    simp only [sweep]
    split
    · rfl
    · rcases key n with h | ⟨h1, h2⟩
      · exact absurd h ‹_›
      · rw [E.data n h1, (T.dead n).2 h2]
  · funext n
    simp only [sweep]
    split
    · rfl
    · rcases key n with h | ⟨h1, h2⟩
      · exact absurd h ‹_›
      · rw [E.borrowed n h1, T.free n h2]
  · funext n
    simp only [sweep]
    split
    · rfl
    · rcases key n with h | ⟨h1, h2⟩
      · exact absurd h ‹_›
      · rw [E.children n h1, T.leaf n h2]
  · funext n
    simp only [sweep]
    split
    · rfl
    · rcases key n with h | ⟨h1, h2⟩
      · exact absurd h ‹_›
      · rw [E.tree n h1, h2]
  · funext t
    simp only [sweep]
    split
    · rfl
    · rename_i h
      by_cases e : t = nt
      · subst e; exact absurd nb h
      · rcases T.exist t with h1 | ⟨h1, -⟩
        · exact absurd (hb t h1) h
        · rw [E.root t e]; exact h1.symm

theorem give_take (a : Forest α) (k : Kind) (n : NodeId) : (a.give k n).take k n = a := by
  refine ext' rfl rfl rfl rfl rfl rfl rfl ?_ rfl rfl rfl
  funext k' m
  simp only [give, take]
  split <;> rfl

theorem giveTree_takeTree (a : Forest α) (t : TreeId) : (a.giveTree t).takeTree t = a := by
  refine ext' rfl rfl rfl rfl rfl rfl rfl rfl ?_ rfl rfl
  funext u
  by_cases e : u = t
  · subst e; simp [giveTree, takeTree, upd]
  · simp [giveTree, takeTree, upd, e]

theorem giveTok_takeTok (a : Forest α) (g : Bool) (t : TreeId) : (a.giveTok g t).takeTok g t = a := by
  cases g
  · refine ext' rfl rfl rfl rfl rfl rfl rfl rfl rfl rfl ?_
    funext u
    by_cases e : u = t
    · subst e; simp [giveTok, takeTok, upd]
    · simp [giveTok, takeTok, upd, e]
  · refine ext' rfl rfl rfl rfl rfl rfl rfl rfl rfl ?_ rfl
    funext u
    by_cases e : u = t
    · subst e; simp [giveTok, takeTok, upd]
    · simp [giveTok, takeTok, upd, e]

end Forest

/-- What a call has returned is dropped: nothing is left of it. -/
theorem ReachW.undo (hr : ReachW w) (S : Shows w a) (R : w.Spare) (s : w.StepW op w1 r) (h : a.Undo op r op2) :
    ∃ w2, w1.StepW op2 w2 .unit ∧ Shows w2 (a.renew w1.heap.nNode w1.heap.nTree) := by
  have T := hr.tidy S
  obtain ⟨a1, S1, st⟩ := s.plays hr S
  have hr1 : ReachW w1 := .step hr s
  have R1 := S.roomy_step R st
  have hsw := hr.swept S
  rw [← S1.newNode, ← S1.newTree]
  have fin : ∀ {b}, a1.May op2 → a1.Fine op2 → (∀ p, ¬ UsesLast a1.children op2 p) → a1.Step op2 .unit b →
      b = a.renew a1.newNode a1.newTree →
      ∃ w2, w1.StepW op2 w2 .unit ∧ Shows w2 (a.renew a1.newNode a1.newTree) := by
    rintro b h1 h2 h3 h4 rfl
    exact hr1.call S1 R1 h1 h2 (fun p h => absurd h (h3 p)) h4
  have same : a = a.renew a.newNode a.newTree := rfl
  cases h with
  | newTree hot d n =>
    cases st
    refine fin ?_ trivial (fun _ h => h) (.drop _ _) ?_
    · simp [Forest.May, Forest.give]
    · rw [Forest.give_take]
      refine Forest.Extra.gone (nt := a.newTree) (x := a.newNode) ?_ T rfl
      refine ⟨T.newNode, Nat.le_refl _, ?_, ?_, fun _ _ => rfl, ?_, ?_, ?_, rfl, rfl, rfl⟩
      · intro n e; simp [Forest.addTree, Forest.addNode, upd, e]
      · intro n e; simp [Forest.addTree, Forest.addNode, upd, e]
      · intro n e; simp [Forest.addTree, Forest.addNode, upd, e]
      · simp [Forest.addTree, Forest.addNode, upd]
      · intro t e; simp [Forest.addTree, Forest.addNode, upd, e]
  | clone =>
    cases st
    refine fin ?_ trivial (fun _ h => h) (.drop _ _) (by rw [Forest.give_take, hsw]; rfl)
    simp [Forest.May, Forest.give]
  | nav =>
    cases st
    refine fin ?_ trivial (fun _ h => h) (.drop _ _) (by rw [Forest.give_take, hsw]; rfl)
    simp [Forest.May, Forest.give]
  | upgrade =>
    cases st
    refine fin ?_ trivial (fun _ h => h) (.drop _ _) (by rw [Forest.give_take, hsw]; rfl)
    simp [Forest.May, Forest.give]
  | plainOf =>
    cases st
    refine fin ?_ trivial (fun _ h => h) (.drop _ _) (by rw [Forest.give_take, hsw]; rfl)
    simp [Forest.May, Forest.give]
  | treeOf =>
    cases st
    refine fin ?_ trivial (fun _ h => h) (.dropTree _) (by rw [Forest.giveTree_takeTree, hsw]; rfl)
    simp [Forest.May, Forest.giveTree, upd]
  | cloneTree =>
    cases st
    refine fin ?_ trivial (fun _ h => h) (.dropTree _) (by rw [Forest.giveTree_takeTree, hsw]; rfl)
    simp [Forest.May, Forest.giveTree, upd]
  | treeRoot =>
    cases st
    refine fin ?_ trivial (fun _ h => h) (.drop _ _) (by rw [Forest.give_take, hsw]; rfl)
    simp [Forest.May, Forest.give]
  | upgradeTree =>
    cases st
    refine fin ?_ trivial (fun _ h => h) (.dropTree _) (by rw [Forest.giveTree_takeTree, hsw]; rfl)
    simp [Forest.May, Forest.giveTree, upd]
  | acquire g t =>
    cases st
    refine fin ?_ trivial (fun _ h => h) (.dropTok _ _)
      (by rw [Forest.giveTok_takeTok, Forest.giveTok_newNode, Forest.giveTok_newTree]; rfl)
    cases g <;> simp [Forest.May, Forest.giveTok, upd]
  | cloneTok g t =>
    cases st
    refine fin ?_ trivial (fun _ h => h) (.dropTok _ _)
      (by rw [Forest.giveTok_takeTok, Forest.giveTok_newNode, Forest.giveTok_newTree]; rfl)
    cases g <;> simp [Forest.May, Forest.giveTok, upd]
  | @extract g n t e =>
    cases st with
    | extract e' =>
      rw [e] at e'; cases e'
      refine fin ?_ trivial (fun _ h => h) (.dropTok _ _)
        (by rw [Forest.giveTok_takeTok, Forest.giveTok_newNode, Forest.giveTok_newTree]; rfl)
      cases g <;> simp [Forest.May, Forest.giveTok, upd]
  | borrow n =>
    have hm := S.may.2 s.allowed
    cases st with
    | borrow e =>
      refine fin hm trivial (fun _ h => h) .borrowEnd ?_
      refine Forest.ext' rfl ?_ rfl rfl rfl rfl rfl rfl rfl rfl rfl
      funext m
      by_cases x : m = n
      · subst x; simp [upd, Forest.renew, e]
      · simp [upd, x, Forest.renew]


/-- A plain handle is bundled with a grant or a prohibition and the bundle taken apart again. -/
theorem ReachW.unbundle {k : Kind} (hr : ReachW w) (S : Shows w a) (R : w.Spare) (s : w.StepW op w1 .unit)
    (ho : op = .bundle k n ∨ ∃ t, op = .bundleWith k n t) :
    ∃ w2 w3, w1.StepW (.plainOf k n) w2 .unit ∧ w2.StepW (.drop k n) w3 .unit ∧ Shows w3 a := by
  have T := hr.tidy S
  obtain ⟨a1, S1, st⟩ := s.plays hr S
  have hr1 : ReachW w1 := .step hr s
  have R1 := S.roomy_step R st
  have hm := S.may.2 s.allowed
  have hk : k ≠ .plain ∧ 0 < a.held .plain n ∧ a1 = (a.take .plain n).give k n := by
    rcases ho with rfl | ⟨t, rfl⟩
    · cases st with
      | bundle => exact ⟨hm.1, hm.2, rfl⟩
    · cases st with
      | bundleWith => exact ⟨by rcases hm.2 with ⟨rfl, -⟩ | ⟨rfl, -⟩ <;> decide, hm.1, rfl⟩
  obtain ⟨hk, hh, rfl⟩ := hk
  generalize hb : (a.take .plain n).give k n = b at S1 R1 st
  have hbk : 0 < b.held k n := by subst hb; simp [Forest.give]
  have hbt : b.tree = a.tree := by subst hb; rfl
  have stp : b.Step (.plainOf k n) .unit (b.give .plain n) := .plainOf k n
  obtain ⟨w2, s2, S2⟩ := hr1.call (op := .plainOf k n) S1 R1 ⟨hk, hbk⟩ trivial (fun _ h => h.elim) stp
  have hr2 : ReachW w2 := .step hr1 s2
  have R2 : (b.give .plain n).Roomy := R1
  obtain ⟨w3, s3, S3⟩ := hr2.call (op := .drop k n) S2 R2 (by simp [Forest.May, Forest.give, hk, hbk]) trivial
    (fun _ h => h.elim) (.drop k n)
  refine ⟨w2, w3, s2, s3, ?_⟩
  have e : (b.give .plain n).take k n = a := by
    subst hb
    refine Forest.ext' rfl rfl rfl rfl rfl rfl rfl ?_ rfl rfl rfl
    funext k' m
    simp only [Forest.give, Forest.take]
    grind
  rw [e, hr.swept S] at S3
  exact S3

/-! ### Nodes that are made and removed -/

/-- A new node that has been removed from its tree is dropped. -/
theorem ReachW.unmade {au : Auth} (hr : ReachW w) (S : Shows w a) (hr1 : ReachW w1) (S1 : Shows w1 a1)
    (R1 : a1.Roomy) (E : a.Extra b x nt) (hh : b.held = (a.give au.kind x).held) (hm : a1.May op2) (hf : a1.Fine op2)
    (hu : ∀ p, UsesLast a1.children op2 p → LastRight w1.heap a1.children p) (st : a1.Step op2 .unit b.sweep)
    (hN : b.newNode = a1.newNode) (h1 : a1.grantTok = a.grantTok) (h2 : a1.prohTok = a.prohTok) :
    ∃ w2 w3, w1.StepW op2 w2 .unit ∧ w2.StepW (.drop au.kind x) w3 .unit ∧
      Shows w3 (a.renew b.newNode b.newTree) := by
  have T := hr.tidy S
  have hle : ∀ k n, a.held k n ≤ b.held k n := by
    intro k n; rw [hh]; simp only [Forest.give]; split
    · exact Nat.le_succ _
    · exact Nat.le_refl _
  have hpos : 0 < b.held au.kind x := by rw [hh]; simp [Forest.give]
  rw [E.stays T hle ⟨_, hpos⟩] at st
  obtain ⟨w2, s2, S2⟩ := hr1.call S1 R1 hm hf hu st
  have hr2 : ReachW w2 := .step hr1 s2
  have R2 : b.Roomy := by
    intro t
    have := R1 t
    rw [h1, h2] at this
    rw [E.grantTok, E.prohTok, hN]; exact this
  have st2 : b.Step (.drop au.kind x) .unit (a.renew b.newNode b.newTree) := by
    have e : (b.take au.kind x).sweep = a.renew b.newNode b.newTree := by
      have E' : a.Extra (b.take au.kind x) x nt :=
        ⟨E.fresh, E.new, E.data, E.borrowed, E.children, E.tree, E.own, E.root, E.trees, E.grantTok, E.prohTok⟩
      refine E'.gone T ?_
      have : b.take au.kind x = { b with held := ((a.give au.kind x).take au.kind x).held } := by
        unfold Forest.take; simp only [hh]
      rw [this]
      show ((a.give au.kind x).take au.kind x).held = a.held
      rw [Forest.give_take]
    rw [← e]; exact .drop _ _
  obtain ⟨w3, s3, S3⟩ := hr2.call (op := .drop au.kind x) S2 R2 hpos trivial (fun _ h => h.elim) st2
  exact ⟨w2, w3, s2, s3, S3⟩

theorem dest_list {f : NodeId → List NodeId} {dest : InsertAs NodeId} (h : DestSplit f dest p l1 l2) :
    f p = l1 ++ l2 := by
  cases h with
  | first => rfl
  | last => simp
  | prev e => exact e
  | next e => rw [e]; simp

theorem dest_anchor {f : NodeId → List NodeId} {dest : InsertAs NodeId} (h : DestSplit f dest p l1 l2) :
    dest.anchor = p ∨ dest.anchor ∈ f p := by
  cases h with
  | first => exact .inl rfl
  | last => exact .inl rfl
  | prev e => exact .inr (by rw [e]; simp [InsertAs.anchor])
  | next e => exact .inr (by rw [e]; simp [InsertAs.anchor])

theorem Forest.desc_leaf {f : NodeId → List NodeId} (h : f x = []) (m : NodeId) : Desc f x m ↔ m = x := by
  constructor
  · intro g
    induction g with
    | refl => rfl
    | step _ hd ih => subst ih; rw [h] at hd; cases hd
  · rintro rfl; exact .refl _

theorem Forest.With.held {au : Auth} (h : a.With n au) : 0 < a.held au.kind n := by
  cases au with
  | token t => exact h.1
  | hot => exact h

theorem Forest.with_new {au : Auth} (h : a.With n au) (hh : 0 < b.held au.kind x) (hg : b.grantTok = a.grantTok) :
    b.With x au := by
  cases au with
  | token t => exact ⟨hh, by rw [hg]; exact h.2⟩
  | hot => exact hh

theorem Forest.fits_new {au : Auth} (h : a.Fits n au) (e : a.tree n = some t) (e' : b.tree x = some t) :
    b.Fits x au := by
  cases au with
  | token u =>
    have : a.tree n = some u := h
    rw [e] at this; cases this; exact e'
  | hot => trivial

theorem Forest.rehome_in {D : NodeId → Prop} (h : D n) : (a.rehome D t).tree n = some t := by
  simp [Forest.rehome, h]

theorem Forest.rehome_out {D : NodeId → Prop} (h : ¬ D n) : (a.rehome D t).tree n = a.tree n := by
  simp [Forest.rehome, h]

/-- A new node is detached and dropped. -/
theorem ReachW.create_detach {au : Auth} {as : AdoptAs} (hr : ReachW w) (S : Shows w a) (R : w.Spare)
    (s : w.StepW (.create au n d as) w1 (.node (some x))) :
    ∃ w2 w3, w1.StepW (.detach au x) w2 .unit ∧ w2.StepW (.drop au.kind x) w3 .unit ∧
      Shows w3 (a.renew (a.newNode + 1) (a.newTree + 1)) := by
  have T := hr.tidy S
  obtain ⟨a1, S1, st⟩ := s.plays hr S
  have hr1 : ReachW w1 := .step hr s
  have R1 := S.roomy_step R st
  have hm := S.may.2 s.allowed
  obtain ⟨v, ch, W⟩ := hr.wide
  have hfit := (s.fits _ S.children).2
  cases st with
  | @create _ _ p _ _ l1 l2 t f e g =>
    have hl := dest_list g
    have hpt : a.tree p = some t := by have := T.dest g; rw [Forest.anchor_at] at this; rw [this]; exact e
    have hpx : p ≠ a.newNode := by rintro rfl; rw [T.newNode] at hpt; cases hpt
    have hx := T.leaf _ T.newNode
    have c1 : ((((a.addNode d t).setChildren p (l1 ++ a.newNode :: l2)).give au.kind a.newNode)).children a.newNode = [] := by
      show upd a.children p _ a.newNode = []
      rw [upd_ne _ _ (Ne.symm hpx)]; exact hx
    have cp : ((((a.addNode d t).setChildren p (l1 ++ a.newNode :: l2)).give au.kind a.newNode)).children p =
        l1 ++ a.newNode :: l2 := upd_same _ _ _
    have tx : ((((a.addNode d t).setChildren p (l1 ++ a.newNode :: l2)).give au.kind a.newNode)).tree a.newNode = some t :=
      upd_same _ _ _
    refine hr.unmade (au := au) (op2 := .detach au a.newNode) (nt := a.newTree) S hr1 S1 R1 ?_ ?_ ?_ trivial ?_
      (.detach (Forest.fits_new f e tx) cp) rfl rfl rfl
    · refine ⟨T.newNode, Nat.le_refl _, ?_, ?_, ?_, ?_, ?_, ?_, rfl, rfl, rfl⟩
      · intro n h; exact upd_ne _ _ h
      · intro n h; exact upd_ne _ _ h
      · intro n h
        show upd (upd a.children p _) p _ n = _
        by_cases hn : n = p
        · subst hn; rw [upd_same]; exact hl.symm
        · rw [upd_ne _ _ hn, upd_ne _ _ hn]
      · intro n h
        exact (Forest.rehome_out fun g => h ((Forest.desc_leaf c1 n).1 g)).trans (upd_ne _ _ h)
      · exact Forest.rehome_in (.refl _)
      · intro t h; exact upd_ne _ _ h
    · rfl
    · exact Forest.with_new hm (by simp [Forest.give]) rfl
    · intro q hq
      have hq' : a.newNode ∈ upd a.children p (l1 ++ a.newNode :: l2) q := List.mem_of_head? hq
      have hpq : q = p := by
        by_cases h : q = p
        · exact h
        · rw [upd_ne _ _ h] at hq'
          obtain ⟨u, hu⟩ := T.some_of_mem hq'
          rw [T.newNode] at hu; cases hu
      subst hpq
      have hl1 : l1 = [] := by
        have hq2 : (upd a.children q (l1 ++ a.newNode :: l2) q).head? = some a.newNode := hq
        rw [upd_same] at hq2
        cases l1 with
        | nil => rfl
        | cons y l1 =>
          simp only [List.cons_append, List.head?_cons, Option.some.injEq] at hq2
          subst hq2
          have : a.newNode ∈ a.children q := by rw [hl]; simp
          obtain ⟨u, hu⟩ := T.some_of_mem this
          rw [T.newNode] at hu; cases hu
      have h1 := hfit q ⟨l1, l2, g, .inl hl1⟩
      obtain ⟨v', ch2, W', -, h2, -⟩ := s.wide W
      obtain rfl := W.shape.unique S.children
      obtain rfl := W'.shape.unique S1.children
      refine h2 q (S.live T hpt) (S1.live (hr1.tidy S1) (t := t) ?_) h1 (fun h => h.elim)
      show upd a.tree a.newNode (some t) q = some t
      rw [upd_ne _ _ hpx]; exact hpt

/-- `last_child` after a call. -/
theorem ReachW.last_after (hr : ReachW w) (S : Shows w a) (s : w.StepW op w1 r) (S1 : Shows w1 a1)
    (ha : w1.heap.alive p = true) (h1 : w.heap.alive p = true → LastRight w.heap a.children p)
    (h2 : ¬ DropsLast a.children op p)
    (h3 : ∀ au n d, op = .createChild au n d → p = a.newNode → LastRight w.heap a.children n) :
    LastRight w1.heap a1.children p := by
  obtain ⟨v, ch, W⟩ := hr.wide
  obtain ⟨a1', S1', st⟩ := s.plays hr S
  obtain rfl := S1.unique S1'
  refine W.marks (S := fun p => w.heap.alive p = true ∧ ¬ LastRight w.heap a.children p) S s S1 st
    (fun p hp hn => Classical.byContradiction fun h => hn ⟨hp, h⟩) ha ?_
  rintro (⟨g1, g2⟩ | g | ⟨au, n, d, g1, g2, g3, g4⟩)
  · exact g2 (h1 g1)
  · exact h2 g
  · exact g4 (h3 au n d g1 g2)

/-- A new parent is replaced with its child and dropped. -/
theorem ReachW.parent_replace {au : Auth} (hr : ReachW w) (S : Shows w a) (R : w.Spare)
    (s : w.StepW (.createParent au n d) w1 (.node (some x))) :
    ∃ w2 w3, w1.StepW (.replace au x) w2 .unit ∧ w2.StepW (.drop au.kind x) w3 .unit ∧
      Shows w3 (a.renew (a.newNode + 1) (a.newTree + 1)) := by
  have T := hr.tidy S
  obtain ⟨a1, S1, st⟩ := s.plays hr S
  have hr1 : ReachW w1 := .step hr s
  have R1 := S.roomy_step R st
  have hm := S.may.2 s.allowed
  have hfit := (s.fits _ S.children).2
  have nx : ∀ {q}, a.newNode ∉ a.children q := fun h => by
    obtain ⟨u, hu⟩ := T.some_of_mem h
    rw [T.newNode] at hu; cases hu
  have nne : n ≠ a.newNode := by
    obtain ⟨u, e⟩ := T.of_with hm
    rintro rfl; rw [T.newNode] at e; cases e
  have hdead : w.heap.alive a.newNode ≠ true := fun h => (S.alive.1 h) ((T.dead _).2 T.newNode)
  have ax : w1.heap.alive a.newNode = true := by
    cases st <;> exact S1.live (hr1.tidy S1) (upd_same _ _ _)
  have lx : LastRight w1.heap a1.children a.newNode :=
    hr.last_after S s S1 ax (fun h => absurd h hdead) (fun h => h.elim) (fun _ _ _ h _ => by cases h)
  cases st with
  | @createParent _ _ p _ l1 l2 t f e g =>
    have hpt : a.tree p = some t := by rw [T.split g]; exact e
    have hpx : p ≠ a.newNode := by rintro rfl; rw [T.newNode] at hpt; cases hpt
    have cx : (((((a.addNode d t).setChildren p (l1 ++ a.newNode :: l2)).setChildren a.newNode [n])).give au.kind
        a.newNode).children a.newNode = [n] := upd_same _ _ _
    have cp : (((((a.addNode d t).setChildren p (l1 ++ a.newNode :: l2)).setChildren a.newNode [n])).give au.kind
        a.newNode).children p = l1 ++ a.newNode :: l2 := by
      show upd (upd a.children p _) a.newNode _ p = _
      rw [upd_ne _ _ hpx, upd_same]
    have tx : (((((a.addNode d t).setChildren p (l1 ++ a.newNode :: l2)).setChildren a.newNode [n])).give au.kind
        a.newNode).tree a.newNode = some t := upd_same _ _ _
    refine hr.unmade (au := au) (op2 := .replace au a.newNode) (nt := a.newTree) S hr1 S1 R1 ?_ ?_ ?_ trivial ?_
      (.replace (Forest.fits_new f e tx) cp) rfl rfl rfl
    · refine ⟨T.newNode, Nat.le_refl _, ?_, ?_, ?_, ?_, ?_, ?_, rfl, rfl, rfl⟩
      · intro n h; exact upd_ne _ _ h
      · intro n h; exact upd_ne _ _ h
      · intro m h
        show upd (upd (upd (upd a.children p _) a.newNode _) p (l1 ++ upd (upd a.children p _) a.newNode _ a.newNode
          ++ l2)) a.newNode _ m = _
        rw [upd_ne _ _ h]
        by_cases hn : m = p
        · subst hn; rw [upd_same, upd_same, g]; simp
        · rw [upd_ne _ _ hn, upd_ne _ _ h, upd_ne _ _ hn]
      · intro n h
        exact (Forest.rehome_out (D := (· = a.newNode)) h).trans (upd_ne _ _ h)
      · exact Forest.rehome_in rfl
      · intro t h; exact upd_ne _ _ h
    · rfl
    · exact Forest.with_new (hm : a.With n au) (by simp [Forest.give]) rfl
    · rintro q (rfl | hq)
      · exact lx
      · have hq' : (upd (upd a.children p (l1 ++ a.newNode :: l2)) a.newNode [n] q).head? = some a.newNode := hq
        have hqx : q ≠ a.newNode := by
          rintro rfl
          rw [upd_same] at hq'
          simp only [List.head?_cons, Option.some.injEq] at hq'
          exact nne hq'
        rw [upd_ne _ _ hqx] at hq'
        have hpq : q = p := by
          by_cases h : q = p
          · exact h
          · rw [upd_ne _ _ h] at hq'
            exact absurd (List.mem_of_head? hq') nx
        subst hpq
        rw [upd_same] at hq'
        have hl1 : l1 = [] := by
          cases l1 with
          | nil => rfl
          | cons y l1 =>
            simp only [List.cons_append, List.head?_cons, Option.some.injEq] at hq'
            subst hq'
            exact absurd (by rw [g]; simp) (nx (q := q))
        subst hl1
        refine hr.last_after S s S1 ?_ (fun _ => hfit q (.inl (by rw [g]; rfl))) (fun h => h.elim)
          (fun _ _ _ h _ => by cases h)
        refine S1.live (hr1.tidy S1) (t := t) ?_
        show upd a.tree a.newNode (some t) q = some t
        rw [upd_ne _ _ hpx]; exact hpt
  | @createRoot _ _ _ t f e g =>
    have cx : (((((a.addNode d t).setRoot t a.newNode).setChildren a.newNode [n])).give au.kind
        a.newNode).children a.newNode = [n] := upd_same _ _ _
    have tx : (((((a.addNode d t).setRoot t a.newNode).setChildren a.newNode [n])).give au.kind
        a.newNode).tree a.newNode = some t := upd_same _ _ _
    have top : (((((a.addNode d t).setRoot t a.newNode).setChildren a.newNode [n])).give au.kind
        a.newNode).IsTop a.newNode := by
      intro q hq
      have hq : a.newNode ∈ upd a.children a.newNode [n] q := hq
      by_cases h : q = a.newNode
      · subst h
        rw [upd_same] at hq
        exact nne (List.mem_singleton.1 hq).symm
      · rw [upd_ne _ _ h] at hq; exact nx hq
    refine hr.unmade (au := au) (op2 := .replace au a.newNode) (nt := a.newTree) S hr1 S1 R1 ?_ ?_ ?_ trivial ?_
      (.replaceRoot (Forest.fits_new f e tx) top cx tx) rfl rfl rfl
    · refine ⟨T.newNode, Nat.le_refl _, ?_, ?_, ?_, ?_, ?_, ?_, rfl, rfl, rfl⟩
      · intro n h; exact upd_ne _ _ h
      · intro n h; exact upd_ne _ _ h
      · intro m h
        show upd (upd a.children a.newNode _) a.newNode _ m = _
        rw [upd_ne _ _ h, upd_ne _ _ h]
      · intro n h
        exact (Forest.rehome_out (D := (· = a.newNode)) h).trans (upd_ne _ _ h)
      · exact Forest.rehome_in rfl
      · intro u h
        show upd (upd (upd a.root t _) t _) a.newTree _ u = _
        rw [upd_ne _ _ h]
        by_cases hu : u = t
        · subst hu; rw [upd_same]; exact (T.top g e).symm
        · rw [upd_ne _ _ hu, upd_ne _ _ hu]
    · rfl
    · exact Forest.with_new (hm : a.With n au) (by simp [Forest.give]) rfl
    · rintro q (rfl | hq)
      · exact lx
      · exact absurd (List.mem_of_head? hq) (top q)

/-- A new only child is replaced with its children and dropped. -/
theorem ReachW.child_replace {au : Auth} (hr : ReachW w) (S : Shows w a) (R : w.Spare)
    (s : w.StepW (.createChild au n d) w1 (.node (some x))) (hl : LastRight w.heap a.children n) :
    ∃ w2 w3, w1.StepW (.replace au x) w2 .unit ∧ w2.StepW (.drop au.kind x) w3 .unit ∧
      Shows w3 (a.renew (a.newNode + 1) (a.newTree + 1)) := by
  have T := hr.tidy S
  obtain ⟨a1, S1, st⟩ := s.plays hr S
  have hr1 : ReachW w1 := .step hr s
  have R1 := S.roomy_step R st
  have hm := S.may.2 s.allowed
  have nx : ∀ {q}, a.newNode ∉ a.children q := fun h => by
    obtain ⟨u, hu⟩ := T.some_of_mem h
    rw [T.newNode] at hu; cases hu
  have hdead : w.heap.alive a.newNode ≠ true := fun h => (S.alive.1 h) ((T.dead _).2 T.newNode)
  cases st with
  | @createChild _ _ _ t f e =>
    have nne : n ≠ a.newNode := by rintro rfl; rw [T.newNode] at e; cases e
    have ax : w1.heap.alive a.newNode = true := S1.live (hr1.tidy S1) (upd_same _ _ _)
    have an : w1.heap.alive n = true := by
      refine S1.live (hr1.tidy S1) (t := t) ?_
      show upd a.tree a.newNode (some t) n = some t
      rw [upd_ne _ _ nne]; exact e
    have lx := hr.last_after S s S1 ax (fun h => absurd h hdead) (fun h => h.elim)
      (fun _ _ _ h _ => by cases h; exact hl)
    have ln := hr.last_after S s S1 an (fun _ => hl) (fun h => h.elim) (fun _ _ _ _ h => absurd h nne)
    have cn : (((((a.addNode d t).setChildren n [a.newNode]).setChildren a.newNode (a.children n))).give au.kind
        a.newNode).children n = [] ++ a.newNode :: [] := by
      show upd (upd a.children n _) a.newNode _ n = _
      rw [upd_ne _ _ nne, upd_same]; rfl
    have tx : (((((a.addNode d t).setChildren n [a.newNode]).setChildren a.newNode (a.children n))).give au.kind
        a.newNode).tree a.newNode = some t := upd_same _ _ _
    refine hr.unmade (au := au) (op2 := .replace au a.newNode) (nt := a.newTree) S hr1 S1 R1 ?_ ?_ ?_ trivial ?_
      (.replace (Forest.fits_new f e tx) cn) rfl rfl rfl
    · refine ⟨T.newNode, Nat.le_refl _, ?_, ?_, ?_, ?_, ?_, ?_, rfl, rfl, rfl⟩
      · intro n h; exact upd_ne _ _ h
      · intro n h; exact upd_ne _ _ h
      · intro m h
        show upd (upd (upd (upd a.children n _) a.newNode _) n ([] ++ upd (upd a.children n _) a.newNode _ a.newNode
          ++ [])) a.newNode _ m = _
        rw [upd_ne _ _ h]
        by_cases hn : m = n
        · subst hn; rw [upd_same, upd_same]; simp
        · rw [upd_ne _ _ hn, upd_ne _ _ h, upd_ne _ _ hn]
      · intro n h
        exact (Forest.rehome_out (D := (· = a.newNode)) h).trans (upd_ne _ _ h)
      · exact Forest.rehome_in rfl
      · intro t h; exact upd_ne _ _ h
    · rfl
    · exact Forest.with_new (hm : a.With n au) (by simp [Forest.give]) rfl
    · rintro q (rfl | hq)
      · exact lx
      · have hq' : (upd (upd a.children n [a.newNode]) a.newNode (a.children n) q).head? = some a.newNode := hq
        have hqx : q ≠ a.newNode := by
          rintro rfl
          rw [upd_same] at hq'
          exact nx (List.mem_of_head? hq')
        rw [upd_ne _ _ hqx] at hq'
        have hpq : q = n := by
          by_cases h : q = n
          · exact h
          · rw [upd_ne _ _ h] at hq'
            exact absurd (List.mem_of_head? hq') nx
        subst hpq
        exact ln

/-! ### There and back -/

theorem Forest.sweep_all (h1 : ∀ n t, b.tree n = some t → b.Holds t) (h2 : ∀ t, b.root t ≠ none → b.Holds t)
    (h3 : ∀ n, b.tree n = none → b.data n = none ∧ b.borrowed n = false ∧ b.children n = []) : b.sweep = b := by
  have key : ∀ n, (∃ t, b.tree n = some t ∧ b.Holds t) ∨ b.tree n = none := by
    intro n
    cases e : b.tree n with
    | none => exact .inr rfl
    | some t => exact .inl ⟨t, rfl, h1 n t e⟩
  refine ext' ?_ ?_ ?_ ?_ ?_ rfl rfl rfl rfl rfl rfl
  · funext n
    simp only [sweep]
    split
    · rfl
    · rcases key n with h | h
      · exact absurd h ‹_›
      · exact (h3 n h).1.symm
  · funext n
    simp only [sweep]
    split
    · rfl
    · rcases key n with h | h
      · exact absurd h ‹_›
      · exact (h3 n h).2.1.symm
  · funext n
    simp only [sweep]
    split
    · rfl
    · rcases key n with h | h
      · exact absurd h ‹_›
      · exact (h3 n h).2.2.symm
  · funext n
    simp only [sweep]
    split
    · rfl
    · rcases key n with h | h
      · exact absurd h ‹_›
      · exact h.symm
  · funext t
    simp only [sweep]
    split
    · rfl
    · rename_i h
      cases e : b.root t with
      | none => rfl
      | some r => exact absurd (h2 t (by rw [e]; simp)) h

theorem erase_cut {f : NodeId → List NodeId} (L : Lists f) (e : f p = l1 ++ n :: l2) :
    (fun q => (f q).erase n) = upd f p (l1 ++ l2) := by
  funext q
  by_cases h : q = p
  · subst h
    rw [upd_same, e]
    have hn := L.nodup q
    rw [e] at hn
    have : n ∉ l1 := by
      intro hm
      have := (List.nodup_append.1 hn).2.2 n hm n (.head _)
      exact this rfl
    rw [List.erase_append_right _ this, List.erase_cons_head]
  · rw [upd_ne _ _ h]
    exact List.erase_of_not_mem fun hm => h (L.uniq q p n hm (by rw [e]; simp))

theorem desc_cut {f g : NodeId → List NodeId} (h : ∀ m, Desc f n m → g m = f m) (m : NodeId) :
    Desc f n m → Desc g n m := by
  intro d
  induction d with
  | refl => exact .refl _
  | step h1 h2 ih => exact .step ih (by rw [h _ h1]; exact h2)

theorem desc_cut' {f g : NodeId → List NodeId} (h : ∀ m, Desc f n m → g m = f m) (m : NodeId) :
    Desc g n m → Desc f n m := by
  intro d
  induction d with
  | refl => exact .refl _
  | step h1 h2 ih => exact .step ih (by rw [← h _ ih]; exact h2)

/-- A subtree that has been moved is moved back. -/
theorem ReachW.move_back {au au' : Auth} {dest dest' : InsertAs NodeId} (hr : ReachW w) (S : Shows w a)
    (hp : a.children p = l1 ++ n :: l2) (s1 : w.StepW (.move au n dest) w1 r1)
    (hd : DestSplit (fun q => (a.children q).erase n) dest' p l1 l2) (s2 : w1.StepW (.move au' n dest') w2 r2) :
    Shows w2 a := by
  have T := hr.tidy S
  have hr1 : ReachW w1 := .step hr s1
  obtain ⟨a1, S1, st1⟩ := s1.plays hr S
  obtain ⟨a2, S2, st2⟩ := s2.plays hr1 S1
  have T1 := hr1.tidy S1
  obtain ⟨t0, et0⟩ := T.some_of_mem (p := p) (c := n) (by rw [hp]; simp)
  rw [erase_cut T.lists hp] at hd
  have ntop : ¬ a.IsTop n := fun h => h p (by rw [hp]; simp)
  obtain ⟨ht, hac⟩ := S.children.acyc
  have hdesc : ∀ {x y}, Desc a.children x y → ht y ≤ ht x := by
    intro x y h
    induction h with
    | refl => exact Nat.le_refl _
    | step _ h2 ih => exact Nat.le_trans (Nat.le_of_lt (hac _ _ h2)) ih
  have npn : ¬ Desc a.children n p := fun h =>
    absurd (hdesc h) (Nat.not_le.2 (hac p n (by rw [hp]; simp)))
  -- the first call
  cases st1 with
  | moveRoot _ h => exact absurd h ntop
  | moveWhole _ h => exact absurd h ntop
  | @move _ _ p' q _ k1 k2 m1 m2 t f1 g1 e1 g2 g3 =>
    obtain ⟨rfl, rfl, rfl⟩ := T.lists.cut hp g1
    have L1 : Lists (upd a.children p (l1 ++ l2)) := T.lists.without hp
    have hq := dest_list g3
    have hq : upd a.children p (l1 ++ l2) q = m1 ++ m2 := hq
    have tq := T.dest_without hp g3
    generalize hX : (((a.rehome (Desc a.children n) t).setChildren p (l1 ++ l2)).setChildren q (m1 ++ n :: m2)) = X
      at S1 T1 st2
    have Xin : ∀ {m}, Desc a.children n m → X.tree m = some t := fun h => by subst hX; exact Forest.rehome_in h
    have Xout : ∀ {m}, ¬ Desc a.children n m → X.tree m = a.tree m := fun h => by
      subst hX; exact Forest.rehome_out h
    have Xch : X.children = upd (upd a.children p (l1 ++ l2)) q (m1 ++ n :: m2) := by subst hX; rfl
    have Xd : X.data = a.data := by subst hX; rfl
    have Xb : X.borrowed = a.borrowed := by subst hX; rfl
    have Xr : X.root = a.root := by subst hX; rfl
    have Xh : X.held = a.held := by subst hX; rfl
    have Xt : X.trees = a.trees := by subst hX; rfl
    have Xn : X.newNode = a.newNode := by subst hX; rfl
    have Xm : X.newTree = a.newTree := by subst hX; rfl
    have Xg : X.grantTok = a.grantTok := by subst hX; rfl
    have Xp : X.prohTok = a.prohTok := by subst hX; rfl
    have tn : ∀ {m}, Desc a.children n m → a.tree m = some t0 := fun h => (T.tree_desc h).trans et0
    -- the places
    have f1mem : ∀ {x y}, y ∈ upd a.children p (l1 ++ l2) x → y ∈ a.children x ∧ y ≠ n := by
      intro x y h
      by_cases hx : x = p
      · subst hx
        rw [upd_same] at h
        refine ⟨by rw [hp]; simp only [List.mem_append, List.mem_cons] at h ⊢
                   rcases h with h | h
                   · exact .inl h
                   · exact .inr (.inr h), ?_⟩
        rintro rfl
        have hn := T.lists.nodup x
        rw [hp] at hn
        have h1 := List.nodup_append.1 hn
        rcases List.mem_append.1 h with h | h
        · exact h1.2.2 y h y (.head _) rfl
        · exact (List.nodup_cons.1 h1.2.1).1 h
      · rw [upd_ne _ _ hx] at h
        refine ⟨h, ?_⟩
        rintro rfl
        exact hx (T.lists.uniq x p y h (by rw [hp]; simp))
    have nanc : ¬ Desc a.children n dest'.anchor := by
      rcases dest_anchor hd with e | h
      · rw [e]; exact npn
      · intro hx
        obtain ⟨h1, h2⟩ := f1mem h
        revert h1 h2 hx
        generalize dest'.anchor = y
        intro hx h1 h2
        cases hx with
        | refl => exact h2 rfl
        | step g1 g2 =>
          rw [T.lists.uniq _ _ _ g2 h1] at g1
          exact npn g1
    have nq : ¬ Desc a.children n q := by
      intro h
      rcases dest_anchor g3 with e | hm
      · exact g2 (by rw [e]; exact h)
      · exact g2 (.step h (f1mem hm).1)
    have tanc : a.tree dest'.anchor = some t0 := by
      rw [← T.dest_without hp hd, T.split hp]; exact et0
    -- nothing vanishes
    have hX0 : X.Holds t0 := by
      have h1 : 0 < X.sweep.held .hot dest'.anchor := by
        have := s2.allowed.2
        rw [S1.held]; exact this
      obtain ⟨u, hu⟩ := T1.of_held h1
      obtain ⟨h2, h3⟩ := (Forest.sweep_tree X _ _).1 hu
      rw [Xout nanc, tanc] at h2
      cases h2; exact h3
    have hold : ∀ {v}, a.Holds v → X.Holds v := by
      intro v hv
      by_cases e : v = t0
      · subst e; exact hX0
      · rcases hv with h | ⟨k, m, h, em⟩
        · exact .inl (by rw [Xt]; exact h)
        · refine .inr ⟨k, m, by rw [Xh]; exact h, ?_⟩
          rw [Xout fun hm => e ?_]
          · exact em
          · rw [tn hm] at em; cases em; rfl
    have hpt : a.tree p = some t0 := by rw [T.split hp]; exact et0
    have hqt : a.tree q = some t := by rw [tq]; exact e1
    have swX : X.sweep = X := by
      refine Forest.sweep_all (fun m v h => ?_) (fun v h => ?_) (fun m h => ?_)
      · by_cases hm : Desc a.children n m
        · rw [Xin hm] at h; cases h
          exact hold (T.holds_of e1)
        · rw [Xout hm] at h
          exact hold (T.holds_of h)
      · rw [Xr] at h
        rcases T.exist v with g | ⟨g, -⟩
        · exact hold g
        · exact absurd g h
      · have hm : ¬ Desc a.children n m := fun hm => by rw [Xin hm] at h; cases h
        rw [Xout hm] at h
        refine ⟨by rw [Xd]; exact (T.dead m).2 h, by rw [Xb]; exact T.free m h, ?_⟩
        have h1 : m ≠ p := by rintro rfl; rw [hpt] at h; cases h
        have h2 : m ≠ q := by rintro rfl; rw [hqt] at h; cases h
        rw [Xch, upd_ne _ _ h2, upd_ne _ _ h1]; exact T.leaf m h
    rw [swX] at S1 T1 st2
    have Xq : X.children q = m1 ++ n :: m2 := by rw [Xch, upd_same]
    have ntop1 : ¬ X.IsTop n := fun h => h q (by rw [Xq]; simp)
    -- the second call
    cases st2 with
    | moveRoot _ h => exact absurd h ntop1
    | moveWhole _ h => exact absurd h ntop1
    | @move _ _ p2 q2 _ k1 k2 s1 s2 t2 f2 g4 e2 g5 g6 =>
      obtain ⟨rfl, rfl, rfl⟩ := T1.lists.cut Xq g4
      have hback : (X.setChildren q (m1 ++ m2)).children = upd a.children p (l1 ++ l2) := by
        show upd X.children q _ = _
        rw [Xch]
        funext x
        by_cases hx : x = q
        · subst hx; rw [upd_same, hq]
        · rw [upd_ne _ _ hx, upd_ne _ _ hx]
      rw [hback] at g6
      obtain ⟨rfl, rfl, rfl⟩ := L1.dest hd g6
      rw [Xout nanc, tanc] at e2
      cases e2
      have agree : ∀ m, Desc a.children n m → X.children m = a.children m := by
        intro m hm
        have h1 : m ≠ p := by rintro rfl; exact npn hm
        have h2 : m ≠ q := by rintro rfl; exact nq hm
        rw [Xch, upd_ne _ _ h2, upd_ne _ _ h1]
      have fin : ((X.rehome (Desc X.children n) t0).setChildren q (m1 ++ m2)).setChildren p (l1 ++ n :: l2) = a := by
        refine Forest.ext' Xd Xb ?_ ?_ Xr Xn Xm Xh Xt Xg Xp
        · show upd (X.setChildren q (m1 ++ m2)).children p _ = _
          rw [hback]
          funext x
          by_cases hx : x = p
          · subst hx; rw [upd_same, hp]
          · rw [upd_ne _ _ hx, upd_ne _ _ hx]
        · funext m
          by_cases hm : Desc a.children n m
          · exact (Forest.rehome_in (desc_cut agree m hm)).trans (tn hm).symm
          · exact (Forest.rehome_out fun h => hm (desc_cut' agree m h)).trans (Xout hm)
      rw [fin, hr.swept S] at S2
      exact S2

end Dendron
