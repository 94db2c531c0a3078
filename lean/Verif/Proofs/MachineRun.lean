import Verif.Proofs.MachineEdit
import Verif.Proofs.WideFacts

/-! The abstract machine is deterministic, and the crate executes its programs. -/

set_option autoImplicit false

namespace Dendron
variable {α : Type} {h : Heap α} {w w' v : World α} {a a' a1 a2 b : Forest α} {ch ch' : NodeId → List NodeId}
  {n m p q q1 q2 : NodeId} {t : TreeId} {k : Kind} {op : Op α} {au : Auth} {l1 l2 m1 m2 k1 k2 : List NodeId}
  {r r1 r2 : Res} {S : NodeId → Prop}

/-! ### Determinism -/

/-- An ordered hierarchy. -/
structure Lists (ch : NodeId → List NodeId) : Prop where
  nodup : ∀ p, (ch p).Nodup
  uniq : ∀ p q c, c ∈ ch p → c ∈ ch q → p = q

theorem FShape.lists (F : FShape h ch) : Lists ch :=
  ⟨F.nodup, fun _ _ _ h1 h2 => F.unique_parent h1 h2⟩

theorem cut_unique {l : List NodeId} (hn : l.Nodup) (e1 : l = l1 ++ n :: l2) (e2 : l = m1 ++ n :: m2) :
    l1 = m1 ∧ l2 = m2 := by
  subst e1
  induction l1 generalizing m1 with
  | nil =>
    cases m1 with
    | nil => simpa using e2
    | cons y m1 =>
      simp only [List.nil_append, List.cons_append, List.cons.injEq] at e2
      obtain ⟨rfl, rfl⟩ := e2
      simp at hn
  | cons x l1 ih =>
    cases m1 with
    | nil =>
      simp only [List.nil_append, List.cons_append, List.cons.injEq] at e2
      obtain ⟨rfl, rfl⟩ := e2
      simp at hn
    | cons y m1 =>
      simp only [List.cons_append, List.cons.injEq] at e2
      obtain ⟨rfl, e2⟩ := e2
      obtain ⟨e3, e4⟩ := ih (List.nodup_cons.1 hn).2 e2
      exact ⟨by rw [e3], e4⟩

theorem Lists.cut (H : Lists ch) (e1 : ch p = l1 ++ n :: l2) (e2 : ch q = m1 ++ n :: m2) :
    p = q ∧ l1 = m1 ∧ l2 = m2 := by
  obtain rfl : p = q := H.uniq p q n (by simp [e1]) (by simp [e2])
  exact ⟨rfl, cut_unique (H.nodup p) e1 e2⟩

theorem Lists.dest {dest : InsertAs NodeId} (H : Lists ch) (d1 : DestSplit ch dest q1 m1 m2)
    (d2 : DestSplit ch dest q2 k1 k2) : q1 = q2 ∧ m1 = k1 ∧ m2 = k2 := by
  cases d1 with
  | first => cases d2; exact ⟨rfl, rfl, rfl⟩
  | last => cases d2; exact ⟨rfl, rfl, rfl⟩
  | prev e1 =>
    cases d2 with
    | prev e2 =>
      obtain ⟨rfl, rfl, rfl⟩ := H.cut e1 e2
      exact ⟨rfl, rfl, rfl⟩
  | next e1 =>
    cases d2 with
    | next e2 =>
      obtain ⟨rfl, rfl, rfl⟩ := H.cut e1 e2
      exact ⟨rfl, rfl, rfl⟩

theorem Lists.without (H : Lists ch) (e : ch p = l1 ++ n :: l2) : Lists (upd ch p (l1 ++ l2)) := by
  have hs : ∀ q c, c ∈ upd ch p (l1 ++ l2) q → c ∈ ch q := by
    intro q c hc
    by_cases eq : q = p
    · subst eq
      rw [upd_same] at hc
      rw [e]
      simp only [List.mem_append, List.mem_cons] at hc ⊢
      rcases hc with h1 | h1
      · exact .inl h1
      · exact .inr (.inr h1)
    · rwa [upd_ne _ _ eq] at hc
  refine ⟨fun q => ?_, fun q1 q2 c h1 h2 => H.uniq q1 q2 c (hs _ _ h1) (hs _ _ h2)⟩
  by_cases eq : q = p
  · subst eq
    rw [upd_same]
    have := H.nodup q
    rw [e] at this
    exact this.sublist (by simp)
  · rw [upd_ne _ _ eq]; exact H.nodup q

theorem Lists.finds {o1 o2 : Option NodeId} {nv : Nav} (H : Lists a.children) (f1 : a.Finds n o1 nv)
    (f2 : a.Finds n o2 nv) : o1 = o2 := by
  have top : ∀ {p l1 l2}, a.children p = l1 ++ n :: l2 → a.IsTop n → False := by
    intro p l1 l2 e ht
    exact ht p (by simp [e])
  cases nv with
  | root =>
    obtain ⟨t1, e1, rfl⟩ := f1
    obtain ⟨t2, e2, rfl⟩ := f2
    rw [e1] at e2; cases e2; rfl
  | parent =>
    rcases f1 with ⟨p, hp, rfl⟩ | ⟨h1, rfl⟩ <;> rcases f2 with ⟨q, hq, rfl⟩ | ⟨h2, rfl⟩
    · rw [H.uniq _ _ _ hp hq]
    · exact absurd hp (h2 p)
    · exact absurd hq (h1 q)
    · rfl
  | prevSibling =>
    rcases f1 with ⟨p, l1, l2, e1, rfl⟩ | ⟨h1, rfl⟩ <;> rcases f2 with ⟨q, k1, k2, e2, rfl⟩ | ⟨h2, rfl⟩
    · rw [(H.cut e1 e2).2.1]
    · exact (top e1 h2).elim
    · exact (top e2 h1).elim
    · rfl
  | nextSibling =>
    rcases f1 with ⟨p, l1, l2, e1, rfl⟩ | ⟨h1, rfl⟩ <;> rcases f2 with ⟨q, k1, k2, e2, rfl⟩ | ⟨h2, rfl⟩
    · rw [(H.cut e1 e2).2.2]
    · exact (top e1 h2).elim
    · exact (top e2 h1).elim
    · rfl
  | firstSibling =>
    rcases f1 with ⟨p, hp, rfl⟩ | ⟨h1, rfl⟩ <;> rcases f2 with ⟨q, hq, rfl⟩ | ⟨h2, rfl⟩
    · rw [H.uniq _ _ _ hp hq]
    · exact absurd hp (h2 p)
    · exact absurd hq (h1 q)
    · rfl
  | lastSibling =>
    rcases f1 with ⟨p, hp, rfl⟩ | ⟨h1, rfl⟩ <;> rcases f2 with ⟨q, hq, rfl⟩ | ⟨h2, rfl⟩
    · rw [H.uniq _ _ _ hp hq]
    · exact absurd hp (h2 p)
    · exact absurd hq (h1 q)
    · rfl
  | firstChild => exact f1.trans f2.symm
  | lastChild => exact f1.trans f2.symm

theorem Lists.det (H : Lists a.children) (s1 : a.Step op r1 a1) (s2 : a.Step op r2 a2) :
    r1 = r2 ∧ a1 = a2 := by
  have top : ∀ {n p l1 l2}, a.children p = l1 ++ n :: l2 → a.IsTop n → False := by
    intro n p l1 l2 e ht
    exact ht p (by simp [e])
  have tr : ∀ {n : NodeId} {t1 t2 : TreeId}, a.tree n = some t1 → a.tree n = some t2 → t1 = t2 := by
    intro n t1 t2 e1 e2; rw [e1] at e2; exact Option.some.inj e2
  have sib : ∀ {n p : NodeId} {as : AdoptAs} {l1 l2 : List NodeId}, DestSplit a.children (as.at n) p l1 l2 →
      a.IsTop n → (as = .previousSibling ∨ as = .nextSibling) → False := by
    intro n p as l1 l2 d ht has
    rcases has with rfl | rfl
    · cases d with
      | prev e => exact top e ht
    · cases d with
      | next e => exact top e ht
  cases s1 with
  | newTree => cases s2; exact ⟨rfl, rfl⟩
  | clone => cases s2; exact ⟨rfl, rfl⟩
  | drop => cases s2; exact ⟨rfl, rfl⟩
  | navNone f1 =>
    cases s2 with
    | navNone => exact ⟨rfl, rfl⟩
    | navSome f2 => cases H.finds f1 f2
  | navSome f1 =>
    cases s2 with
    | navNone f2 => cases H.finds f1 f2
    | navSome f2 => cases H.finds f1 f2; exact ⟨rfl, rfl⟩
  | upgradeDead h1 =>
    cases s2 with
    | upgradeDead => exact ⟨rfl, rfl⟩
    | upgrade h2 => exact absurd h1 h2
  | upgrade h1 =>
    cases s2 with
    | upgradeDead h2 => exact absurd h2 h1
    | upgrade => exact ⟨rfl, rfl⟩
  | plainOf => cases s2; exact ⟨rfl, rfl⟩
  | bundleRefused h1 h2 h3 =>
    cases s2 with
    | bundleRefused => exact ⟨rfl, rfl⟩
    | bundle g1 g2 g3 =>
      cases tr h1 g1
      rw [h2] at g2; cases g2
      exact absurd h3 g3
  | bundle h1 h2 h3 =>
    cases s2 with
    | bundleRefused g1 g2 g3 =>
      cases tr h1 g1
      rw [h2] at g2; cases g2
      exact absurd g3 h3
    | bundle => exact ⟨rfl, rfl⟩
  | bundleWith => cases s2; exact ⟨rfl, rfl⟩
  | treeOf h1 =>
    cases s2 with
    | treeOf h2 => cases tr h1 h2; exact ⟨rfl, rfl⟩
  | cloneTree => cases s2; exact ⟨rfl, rfl⟩
  | dropTree => cases s2; exact ⟨rfl, rfl⟩
  | treeRoot h1 =>
    cases s2 with
    | treeRoot h2 => rw [h1] at h2; cases h2; exact ⟨rfl, rfl⟩
  | upgradeTreeDead h1 =>
    cases s2 with
    | upgradeTreeDead => exact ⟨rfl, rfl⟩
    | upgradeTree h2 => exact absurd h1 h2
  | upgradeTree h1 =>
    cases s2 with
    | upgradeTreeDead h2 => exact absurd h2 h1
    | upgradeTree => exact ⟨rfl, rfl⟩
  | acquireRefused h1 =>
    cases s2 with
    | acquireRefused => exact ⟨rfl, rfl⟩
    | acquire h2 => exact absurd h1 h2
  | acquire h1 =>
    cases s2 with
    | acquireRefused h2 => exact absurd h2 h1
    | acquire => exact ⟨rfl, rfl⟩
  | cloneTok => cases s2; exact ⟨rfl, rfl⟩
  | dropTok => cases s2; exact ⟨rfl, rfl⟩
  | extract h1 =>
    cases s2 with
    | extract h2 => cases tr h1 h2; exact ⟨rfl, rfl⟩
  | create _ h1 d1 =>
    cases s2 with
    | create _ h2 d2 =>
      cases tr h1 h2
      obtain ⟨rfl, rfl, rfl⟩ := H.dest d1 d2
      exact ⟨rfl, rfl⟩
    | createFails _ h2 h3 => exact (sib d1 h2 h3).elim
  | createFails _ h2 h3 =>
    cases s2 with
    | create _ _ d1 => exact (sib d1 h2 h3).elim
    | createFails => exact ⟨rfl, rfl⟩
  | createParent _ h1 e1 =>
    cases s2 with
    | createParent _ h2 e2 =>
      cases tr h1 h2
      obtain ⟨rfl, rfl, rfl⟩ := H.cut e1 e2
      exact ⟨rfl, rfl⟩
    | createRoot _ _ h2 => exact (top e1 h2).elim
  | createRoot _ h1 e1 =>
    cases s2 with
    | createParent _ _ e2 => exact (top e2 e1).elim
    | createRoot _ h2 _ => cases tr h1 h2; exact ⟨rfl, rfl⟩
  | createChild _ h1 =>
    cases s2 with
    | createChild _ h2 => cases tr h1 h2; exact ⟨rfl, rfl⟩
  | detachRoot _ h1 =>
    cases s2 with
    | detachRoot => exact ⟨rfl, rfl⟩
    | detach _ e2 => exact (top e2 h1).elim
  | detach _ e1 =>
    cases s2 with
    | detachRoot _ h2 => exact (top e1 h2).elim
    | detach _ e2 =>
      obtain ⟨rfl, rfl, rfl⟩ := H.cut e1 e2
      exact ⟨rfl, rfl⟩
  | replace _ e1 =>
    cases s2 with
    | replace _ e2 =>
      obtain ⟨rfl, rfl, rfl⟩ := H.cut e1 e2
      exact ⟨rfl, rfl⟩
    | replaceRoot _ h2 => exact (top e1 h2).elim
    | replaceEmpty _ h2 => exact (top e1 h2).elim
    | replaceSeveral _ h2 => exact (top e1 h2).elim
  | replaceRoot _ h1 c1 t1 =>
    cases s2 with
    | replace _ e2 => exact (top e2 h1).elim
    | replaceRoot _ h2 c2 t2 =>
      rw [c1] at c2; cases c2
      cases tr t1 t2
      exact ⟨rfl, rfl⟩
    | replaceEmpty _ h2 c2 => rw [c1] at c2; cases c2
    | replaceSeveral _ h2 c2 => rw [c1] at c2; simp at c2
  | replaceEmpty _ h1 c1 =>
    cases s2 with
    | replace _ e2 => exact (top e2 h1).elim
    | replaceRoot _ h2 c2 t2 => rw [c1] at c2; cases c2
    | replaceEmpty => exact ⟨rfl, rfl⟩
    | replaceSeveral _ h2 c2 => rw [c1] at c2; simp at c2
  | replaceSeveral _ h1 c1 =>
    cases s2 with
    | replace _ e2 => exact (top e2 h1).elim
    | replaceRoot _ h2 c2 t2 => rw [c2] at c1; simp at c1
    | replaceEmpty _ h2 c2 => rw [c2] at c1; simp at c1
    | replaceSeveral => exact ⟨rfl, rfl⟩
  | moveRoot _ h1 e1 =>
    cases s2 with
    | moveRoot => exact ⟨rfl, rfl⟩
    | move _ e2 => exact (top e2 h1).elim
    | moveWhole _ _ g1 _ g2 g3 => rw [g1, g2] at e1; exact absurd (Option.some.inj e1) g3
  | move _ e1 t1 _ d1 =>
    cases s2 with
    | moveRoot _ h2 => exact (top e1 h2).elim
    | move _ e2 t2 _ d2 =>
      cases tr t1 t2
      obtain ⟨rfl, rfl, rfl⟩ := H.cut e1 e2
      obtain ⟨rfl, rfl, rfl⟩ := (H.without e1).dest d1 d2
      exact ⟨rfl, rfl⟩
    | moveWhole _ h2 => exact (top e1 h2).elim
  | moveWhole _ h1 g1 _ g2 g3 d1 =>
    cases s2 with
    | moveRoot _ _ e1 => rw [g1, g2] at e1; exact absurd (Option.some.inj e1) g3
    | move _ e2 => exact (top e2 h1).elim
    | moveWhole _ _ k1 _ k2 _ d2 =>
      cases tr g2 k2
      obtain ⟨rfl, rfl, rfl⟩ := H.dest d1 d2
      exact ⟨rfl, rfl⟩
  | writeBorrowed h1 =>
    cases s2 with
    | writeBorrowed => exact ⟨rfl, rfl⟩
    | write h2 => rw [h1] at h2; cases h2
  | write h1 =>
    cases s2 with
    | writeBorrowed h2 => rw [h1] at h2; cases h2
    | write => exact ⟨rfl, rfl⟩
  | borrowBorrowed h1 =>
    cases s2 with
    | borrowBorrowed => exact ⟨rfl, rfl⟩
    | borrow h2 => rw [h1] at h2; cases h2
  | borrow h1 =>
    cases s2 with
    | borrowBorrowed h2 => rw [h1] at h2; cases h2
    | borrow => exact ⟨rfl, rfl⟩
  | borrowEnd => cases s2; exact ⟨rfl, rfl⟩

/-! ### What the abstract state says of the memory -/

theorem Shows.unique (S1 : Shows w a) (S2 : Shows w b) : a = b :=
  (S1.eq_view S2.children).trans (S2.eq_view S2.children).symm

theorem Shows.may (S : Shows w a) : a.May op ↔ w.Allowed op := by
  have e1 := S.held
  have e2 := S.trees
  have e3 := S.grantTok
  have e4 := S.prohTok
  have hw : ∀ n au, a.With n au ↔ w.HasAuth n au := by
    intro n au
    cases au <;> simp [Forest.With, World.HasAuth, e1, e3]
  cases op <;> simp [Forest.May, World.Allowed, World.Holds, e1, e2, e3, e4, hw]

theorem Wide.auth_alive (W : Wide w v ch) (ha : w.HasAuth n au) : w.heap.alive n = true := by
  have hh : w.Holds n := by
    cases au with
    | token t => exact ⟨_, ha.1⟩
    | hot => exact ⟨_, ha⟩
  obtain ⟨k, hk⟩ := hh
  exact W.held_alive hk

theorem Shows.callFits (S : Shows w a) (W : Wide w v ch) (ha : w.Allowed op) :
    a.Fine op ↔ CallFits w.heap a.children op := by
  cases op with
  | move au n dest =>
    obtain ⟨h1, h2⟩ := ha
    have e1 := S.tree_of (W.auth_alive h1)
    have e2 := S.tree_of (W.held_alive h2)
    simp only [Forest.Fine, CallFits, MoveFits, LonelyRoot, Forest.IsTop, e1, e2, S.trees, W.treeRc]
  | _ => exact ⟨fun _ => trivial, fun _ => trivial⟩

theorem Shows.tokenOK (S : Shows w a) (W : Wide w v ch) (ha : w.Allowed op) (st : a.Step op r a') :
    TokenOK w.heap op := by
  cases st with
  | bundleWith h1 =>
    show w.heap.memTree _ = _
    rw [← S.tree_of (W.held_alive ha.1)]; exact h1
  | create h1 => exact (S.fits (W.auth_alive ha)).1 h1
  | createFails h1 => exact (S.fits (W.auth_alive ha)).1 h1
  | createParent h1 => exact (S.fits (W.auth_alive ha)).1 h1
  | createRoot h1 => exact (S.fits (W.auth_alive ha)).1 h1
  | createChild h1 => exact (S.fits (W.auth_alive ha)).1 h1
  | detach h1 => exact (S.fits (W.auth_alive ha)).1 h1
  | detachRoot h1 => exact (S.fits (W.auth_alive ha)).1 h1
  | replace h1 => exact (S.fits (W.auth_alive ha)).1 h1
  | replaceRoot h1 => exact (S.fits (W.auth_alive ha)).1 h1
  | replaceEmpty h1 => exact (S.fits (W.auth_alive ha)).1 h1
  | replaceSeveral h1 => exact (S.fits (W.auth_alive ha)).1 h1
  | moveRoot h1 => exact (S.fits (W.auth_alive ha.1)).1 h1
  | move h1 => exact (S.fits (W.auth_alive ha.1)).1 h1
  | moveWhole h1 => exact (S.fits (W.auth_alive ha.1)).1 h1
  | _ => trivial

/-- A call that can be made: the crate makes exactly the step of the machine. -/
theorem Wide.exact_step (W : Wide w v ch) (S : Shows w a) (hm : a.May op) (hf : a.Fine op)
    (hu : ∀ p, UsesLast a.children op p → LastRight w.heap a.children p) (hr : Room w.heap) :
    a.Step op r a' ↔ ∃ w', w.exec op = .ok (w', r) ∧ Shows w' a' := by
  obtain rfl := W.shape.unique S.children
  have ha := S.may.1 hm
  have hc := (S.callFits W ha).1 hf
  constructor
  · intro st
    obtain ⟨w', r1, a1, e, S', st1⟩ := W.plays S ha hc hu hr (S.tokenOK W ha st)
    obtain ⟨rfl, rfl⟩ := (S.children.lists).det st st1
    exact ⟨w', e, S'⟩
  · rintro ⟨w', e, S'⟩
    by_cases ht : TokenOK w.heap op
    · obtain ⟨w1, r1, a1, e1, S1, st1⟩ := W.plays S ha hc hu hr ht
      rw [e] at e1
      simp only [Except.ok.injEq, Prod.mk.injEq] at e1
      obtain ⟨rfl, rfl⟩ := e1
      obtain rfl := S'.unique S1
      exact st1
    · obtain ⟨m, e1⟩ := World.bad_token ht
      rw [e] at e1; cases e1

/-! ### Lock counters -/

theorem Forest.Step.counts (st : a.Step op r a') :
    a'.newNode ≤ a.newNode + 1 ∧ ∀ t, a'.grantTok t ≤ a.grantTok t + 1 ∧ a'.prohTok t ≤ a.prohTok t + 1 := by
  have up : ∀ (f : TreeId → Nat) (t u : TreeId), upd f t (f t + 1) u ≤ f u + 1 := by
    intro f t u
    by_cases e : u = t
    · subst e; rw [upd_same]; exact Nat.le_refl _
    · rw [upd_ne _ _ e]; exact Nat.le_succ _
  have dn : ∀ (f : TreeId → Nat) (t u : TreeId), upd f t (f t - 1) u ≤ f u + 1 := by
    intro f t u
    by_cases e : u = t
    · subst e; rw [upd_same]; exact Nat.le_succ_of_le (Nat.sub_le _ _)
    · rw [upd_ne _ _ e]; exact Nat.le_succ _
  have gt : ∀ b t, (a.giveTok b t).newNode ≤ a.newNode + 1 ∧
      ∀ u, (a.giveTok b t).grantTok u ≤ a.grantTok u + 1 ∧ (a.giveTok b t).prohTok u ≤ a.prohTok u + 1 := by
    intro b t
    cases b
    · exact ⟨Nat.le_succ _, fun u => ⟨Nat.le_succ _, up _ _ _⟩⟩
    · exact ⟨Nat.le_succ _, fun u => ⟨up _ _ _, Nat.le_succ _⟩⟩
  have tt : ∀ b t, (a.takeTok b t).newNode ≤ a.newNode + 1 ∧
      ∀ u, (a.takeTok b t).grantTok u ≤ a.grantTok u + 1 ∧ (a.takeTok b t).prohTok u ≤ a.prohTok u + 1 := by
    intro b t
    cases b
    · exact ⟨Nat.le_succ _, fun u => ⟨Nat.le_succ _, dn _ _ _⟩⟩
    · exact ⟨Nat.le_succ _, fun u => ⟨dn _ _ _, Nat.le_succ _⟩⟩
  cases st with
  | acquire => exact gt _ _
  | cloneTok => exact gt _ _
  | extract => exact gt _ _
  | dropTok => exact tt _ _
  | newTree | create | createParent | createRoot | createChild | createFails =>
    exact ⟨Nat.le_refl _, fun _ => ⟨Nat.le_succ _, Nat.le_succ _⟩⟩
  | _ => exact ⟨Nat.le_succ _, fun _ => ⟨Nat.le_succ _, Nat.le_succ _⟩⟩

theorem Wide.room (W : Wide w v ch) {N : Nat} (hN : N < 2 ^ 61) (hn : w.heap.nNode ≤ N)
    (ht : ∀ t, w.grantTok t ≤ N ∧ w.prohTok t ≤ N) : Room w.heap := by
  intro t hta
  obtain ⟨L, hd, hm, h1, h2, h3⟩ := W.locksExact hta
  have hl : L.length ≤ N := by
    refine nodup_length_le N L hd fun x hx => ?_
    obtain ⟨hp, -⟩ := (hm x).1 hx
    have : w.heap.alive x = true := by
      rcases Nat.eq_zero_or_pos (w.held .hot x) with e | e
      · exact W.held_alive (k := .frozen) (by omega)
      · exact W.held_alive e
    exact Nat.lt_of_lt_of_le (W.shape.bound x this) hn
  have htt := ht t
  have hb : (2 : Int) ^ 62 = 4611686018427387904 := by decide
  have hb1 : (2 : Nat) ^ 61 = 2305843009213693952 := by decide
  rw [hb]
  rw [hb1] at hN
  by_cases g1 : w.GrantAlive t
  · have := h1 g1; omega
  · by_cases g2 : w.ProhAlive t
    · have := h2 g2; omega
    · have := h3 g1 g2; omega

/-! ### Stale last children -/

/-- A node that appears. -/
theorem Forest.Step.grown (st : a.Step op r a') (hd : a.data p = none) (hc : a.children p = [])
    (hw : ∀ n d, op = .write n d → a.data n ≠ none)
    (hk : ∀ au n d as, op = .create au n d as → a.data n ≠ none) (hd' : a'.data p ≠ none) :
    p = a.newNode ∧ (a'.children p = [] ∨ (∃ au n d, op = .createParent au n d ∧ a'.children p = [n]) ∨
      ∃ au n d, op = .createChild au n d ∧ a'.children p = a.children n) := by
  have sw : ∀ b : Forest α, b.data = a.data → b.sweep.data p ≠ none → False := by
    intro b e h
    simp only [Forest.sweep, e, hd] at h
    split at h <;> exact h rfl
  have nw : ∀ d, upd a.data a.newNode (some d) p ≠ none → p = a.newNode := by
    intro d h
    apply Decidable.byContradiction
    intro hne
    apply h
    rw [upd_ne _ _ hne]; exact hd
  cases st with
  | newTree => obtain rfl := nw _ hd'; exact ⟨rfl, .inl hc⟩
  | @create au n p1 d as l3 l4 t _ _ d1 =>
    obtain rfl := nw _ hd'
    refine ⟨rfl, .inl ?_⟩
    have hne : ∀ q l1 l2, DestSplit a.children (as.at n) q l1 l2 → a.newNode ≠ q := by
      rintro q l1 l2 hds rfl
      have hn : n ≠ a.newNode := by rintro rfl; exact hk _ _ _ _ rfl hd
      cases as with
      | firstChild => cases hds; exact hn rfl
      | lastChild => cases hds; exact hn rfl
      | previousSibling => cases hds with | prev e => rw [hc] at e; simp at e
      | nextSibling => cases hds with | next e => rw [hc] at e; simp at e
    show upd a.children _ _ a.newNode = []
    rw [upd_ne _ _ (hne _ _ _ d1)]; exact hc
  | createParent _ _ e =>
    obtain rfl := nw _ hd'
    exact ⟨rfl, .inr (.inl ⟨_, _, _, rfl, upd_same _ _ _⟩)⟩
  | createRoot =>
    obtain rfl := nw _ hd'
    exact ⟨rfl, .inr (.inl ⟨_, _, _, rfl, upd_same _ _ _⟩)⟩
  | createChild =>
    obtain rfl := nw _ hd'
    exact ⟨rfl, .inr (.inr ⟨_, _, _, rfl, upd_same _ _ _⟩)⟩
  | @write n d _ =>
    exfalso
    by_cases e : p = n
    · subst e; exact hw _ _ rfl hd
    · replace hd' : upd a.data n (some d) p ≠ none := hd'
      rw [upd_ne _ _ e] at hd'; exact hd' hd
  | acquire => exfalso; simp only [Forest.giveTok] at hd'; split at hd' <;> exact hd' hd
  | cloneTok => exfalso; simp only [Forest.giveTok] at hd'; split at hd' <;> exact hd' hd
  | extract => exfalso; simp only [Forest.giveTok] at hd'; split at hd' <;> exact hd' hd
  | dropTok => exfalso; simp only [Forest.takeTok] at hd'; split at hd' <;> exact hd' hd
  | drop | dropTree | bundleRefused | detach | replace | replaceRoot | move | moveWhole =>
    refine (sw _ ?_ hd').elim; rfl
  | _ => exact absurd hd hd'

theorem Wide.marks (W : Wide w v ch) (Sh : Shows w a) (s : w.StepW op w' r) (Sh' : Shows w' a')
    (st : a.Step op r a') (hS : ∀ p, w.heap.alive p = true → ¬ S p → LastRight w.heap a.children p)
    (ha' : w'.heap.alive p = true) (hp : ¬ a.marks S op p) : LastRight w'.heap a'.children p := by
  obtain rfl := W.shape.unique Sh.children
  obtain ⟨h1, h2⟩ := s.fits _ W.shape
  obtain ⟨w1, r1, v', ch', e, W', K, St, Stx⟩ := W.step s.allowed h1 h2 s.room s.tokenOK
  rw [s.run] at e
  simp only [Except.ok.injEq, Prod.mk.injEq] at e
  obtain ⟨rfl, rfl⟩ := e
  obtain rfl := W'.shape.unique Sh'.children
  simp only [Forest.marks, not_or] at hp
  obtain ⟨p1, p2, p3⟩ := hp
  refine W'.lastRight_of ha' fun x hx => ?_
  apply Decidable.byContradiction
  intro hne
  by_cases hb : p < v.heap.nNode
  · rcases St p x hb hx hne with h3 | ⟨h3, h4⟩
    · exact p2 h3
    · have hpa : w.heap.alive p = true := W.shape.alive_parent (List.mem_of_head? h3)
      exact h4 (W.lastRight (hS p hpa p1) h3)
  · -- a new node
    have hnn : v.heap.nNode = w.heap.nNode := W.sim.heap.nNode
    rw [hnn] at hb
    have hdead : w.heap.alive p = false := by
      cases e : w.heap.alive p with
      | false => rfl
      | true => exact absurd (W.shape.bound p e) hb
    have hch := W.shape.dead p hdead
    have hal := Sh'.alive.1 ha'
    have hnone : a.data p = none := by
      apply Classical.byContradiction
      intro h; rw [Sh.alive.2 h] at hdead; cases hdead
    have hwr : ∀ n d, op = .write n d → a.data n ≠ none := by
      rintro n d rfl
      obtain ⟨k, hk⟩ := s.allowed
      exact Sh.alive.1 (W.held_alive hk)
    have hcr : ∀ au n d as, op = .create au n d as → a.data n ≠ none := by
      rintro au n d as rfl
      exact Sh.alive.1 (W.auth_alive s.allowed)
    obtain ⟨rfl, hg | ⟨au, n, d, rfl, hg⟩ | ⟨au, n, d, rfl, hg⟩⟩ := st.grown hnone hch hwr hcr hal
    · rw [hg] at hx; cases hx
    · obtain rfl : n = x := by rw [hg] at hx; simpa using hx
      obtain ⟨q, hq, hst⟩ := Stx n _ (by rw [hg]; rfl) hne fun q hq => hq
      exact hst (W.lastRight (h2 q (.inl hq)) hq)
    · rw [hg] at hx
      obtain ⟨q, hq, hst⟩ := Stx x _ (by rw [hg]; exact hx) hne fun q hq => hq
      obtain rfl := W.shape.unique_parent (List.mem_of_head? hq) (List.mem_of_head? hx)
      have hqa : w.heap.alive q = true := W.shape.alive_parent (List.mem_of_head? hq)
      exact hst (W.lastRight (hS q hqa fun hSq => p3 ⟨au, q, d, rfl, rfl, hSq⟩) hq)

/-- The parents a call depends on exist. -/
theorem Wide.usesLast_alive (W : Wide w v ch) (F : FShape w.heap ch') (ha : w.Allowed op)
    (hu : UsesLast ch' op p) : w.heap.alive p = true := by
  have hd : ∀ {c}, (ch' p).head? = some c → w.heap.alive p = true :=
    fun h => F.alive_parent (List.mem_of_head? h)
  have hend : ∀ {ch1 : NodeId → List NodeId} {dest : InsertAs NodeId}, (∀ q c, c ∈ ch1 q → c ∈ ch' q) →
      w.heap.alive dest.anchor = true → AtEnd ch1 dest p → w.heap.alive p = true := by
    rintro ch1 dest hs hal ⟨l1, l2, d, -⟩
    rcases d.anchor with e | e
    · rw [← e]; exact hal
    · exact F.alive_parent (hs _ _ e)
  cases op with
  | nav k q n =>
    cases q with
    | lastChild => obtain rfl : p = n := hu; exact W.held_alive ha
    | lastSibling => exact F.alive_parent hu
    | prevSibling => exact hd hu
    | _ => exact hu.elim
  | create au n d as =>
    refine hend (fun _ _ h => h) ?_ hu
    have : (as.at n).anchor = n := by cases as <;> rfl
    rw [this]; exact W.auth_alive ha
  | createParent au n d =>
    rcases hu with hu | hu
    · exact hd hu
    · exact F.alive_parent (List.mem_of_getLast? hu)
  | detach au n => exact hd hu
  | replace au n =>
    rcases hu with rfl | hu
    · exact W.auth_alive ha
    · exact hd hu
  | move au n dest =>
    rcases hu with hu | hu
    · exact hd hu
    · exact hend (fun _ _ h => List.mem_of_mem_erase h) (W.held_alive ha.2) hu
  | _ => exact hu.elim

/-! ### Histories -/

theorem Shows.init : Shows (World.init : World α) Forest.init := by
  have F := (Inv.init (α := α)).wf.toFShape
  have e := F.view
  have : (World.init : World α).view (fun _ => []) = Forest.init := by
    rfl
  rw [← this]; exact e

theorem Played.reach {l : List (Op α × Res)} (h : Played l w) : ReachW w := by
  induction h with
  | init => exact .init
  | step _ s ih => exact .step ih s

theorem World.StepW.plays (s : w.StepW op w' r) (hr : ReachW w) (S : Shows w a) :
    ∃ a', Shows w' a' ∧ a.Step op r a' := by
  obtain ⟨v, ch, W⟩ := hr.wide
  obtain ⟨h1, h2⟩ := s.fits ch W.shape
  obtain ⟨w1, r1, a', e, S', st⟩ := W.plays S s.allowed h1 h2 s.room s.tokenOK
  rw [s.run] at e
  simp only [Except.ok.injEq, Prod.mk.injEq] at e
  obtain ⟨rfl, rfl⟩ := e
  exact ⟨a', S', st⟩

theorem Played.runs {l : List (Op α × Res)} (h : Played l w) :
    ∃ a, Forest.Runs Forest.init l a ∧ Shows w a := by
  induction h with
  | init => exact ⟨_, .nil _, Shows.init⟩
  | step hp s ih =>
    obtain ⟨a, hR, S⟩ := ih
    obtain ⟨a', S', st⟩ := s.plays hp.reach S
    exact ⟨a', .snoc hR st, S'⟩

theorem Forest.Runs.counts {l : List (Op α × Res)} (h : Forest.Runs a l b) :
    b.newNode ≤ a.newNode + l.length ∧
      ∀ t, b.grantTok t ≤ a.grantTok t + l.length ∧ b.prohTok t ≤ a.prohTok t + l.length := by
  induction h with
  | nil => exact ⟨Nat.le_refl _, fun _ => ⟨Nat.le_refl _, Nat.le_refl _⟩⟩
  | snoc _ st ih =>
    obtain ⟨c1, c2⟩ := st.counts
    obtain ⟨i1, i2⟩ := ih
    rw [List.length_append, List.length_singleton]
    refine ⟨Nat.le_trans c1 (Nat.succ_le_succ i1), fun t => ?_⟩
    obtain ⟨j1, j2⟩ := c2 t
    obtain ⟨k1, k2⟩ := i2 t
    exact ⟨Nat.le_trans j1 (Nat.succ_le_succ k1), Nat.le_trans j2 (Nat.succ_le_succ k2)⟩

theorem Played.room {l : List (Op α × Res)} (h : Played l w) (hl : l.length < 2 ^ 61) : Room w.heap := by
  obtain ⟨v, ch, W⟩ := h.reach.wide
  obtain ⟨a, R, S⟩ := h.runs
  obtain ⟨c1, c2⟩ := R.counts
  have e : ∀ n : Nat, 0 + n = n := Nat.zero_add
  refine W.room hl ?_ fun t => ?_
  · rw [← S.newNode]; exact Nat.le_trans c1 (by rw [show (Forest.init : Forest α).newNode = 0 from rfl, e]; exact Nat.le_refl _)
  · rw [← S.grantTok, ← S.prohTok]
    have := c2 t
    simp only [Forest.init, e] at this
    exact this

theorem Forest.Program.played {l : List (Op α × Res)} (h : Forest.Program l a S) :
    l.length ≤ 2 ^ 61 →
    ∃ w, Played l w ∧ Shows w a ∧ ∀ p, w.heap.alive p = true → ¬ S p → LastRight w.heap a.children p := by
  induction h with
  | init =>
    intro _
    refine ⟨_, .init, Shows.init, fun p hp => ?_⟩
    cases hp
  | @step l a a' S op r hp hm hf hu st ih =>
    intro hl
    rw [List.length_append, List.length_singleton] at hl
    obtain ⟨w, P, Sh, hS⟩ := ih (by omega)
    obtain ⟨v, ch, W⟩ := P.reach.wide
    have hroom := P.room (by omega)
    have ha := Sh.may.1 hm
    have hlast : ∀ p, UsesLast a.children op p → LastRight w.heap a.children p := by
      intro p hup
      exact hS p (W.usesLast_alive Sh.children ha hup) (hu p hup)
    obtain ⟨w', e, Sh'⟩ := (W.exact_step Sh hm hf hlast hroom).1 st
    have s : w.StepW op w' r := ⟨ha, fun ch' F => by
      obtain rfl := Sh.children.unique F
      exact ⟨(Sh.callFits W ha).1 hf, hlast⟩, hroom, e⟩
    exact ⟨w', .step P s, Sh', fun p ha' hp => W.marks Sh s Sh' st hS ha' hp⟩

end Dendron
