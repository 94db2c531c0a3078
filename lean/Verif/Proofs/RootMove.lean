import Verif.Proofs.DropKeep
import Verif.Proofs.StrictWF

/-!
Moving the root of a tree to another tree: the old tree loses all its nodes, and is destroyed in the
middle of the loop over the memberships unless a `Tree` holds it.
-/

set_option linter.unusedSimpArgs false
set_option linter.unusedVariables false

set_option autoImplicit false

namespace Dendron
open RTree
variable {α : Type} {h h' : Heap α} {ch : NodeId → List NodeId} {n p : NodeId} {t t' : TreeId}
  {T : RTree NodeId}

/-- The subtree `T` at `n` is the whole tree `t`. -/
structure RootCtx (h : Heap α) (ch : NodeId → List NodeId) (n : NodeId) (T : RTree NodeId)
    (t t' : TreeId) : Prop where
  shape : FShape h ch
  sub : SubtreeAt ch n T
  alive : h.alive n = true
  memb : ∀ x ∈ T.nodes, h.memTree x = some t
  ne : t ≠ t'
  grantsPos : (h.lockedIn T.nodes : Int) ≤ h.grants t
  grantsPos' : 0 ≤ h.grants t'
  grantsMax : h.grants t' + h.lockedIn T.nodes ≤ Lock.isizeMax
  tbound : t < h.nTree
  root : h.root t = some n
  rpar : h.parent n = none
  rroot : ∀ x ∈ T.nodes, ∀ u, h.root u = some x → u = t ∧ x = n
  salive : ∀ x u rc l, h.mem x = .strong u rc l → h.alive x = true
  strong : IsStrong h n
  /-- all members of `t` are in `T` -/
  all : ∀ x rc l, h.mem x = .strong t rc l → x ∈ T.nodes

theorem RootCtx.n_mem (C : RootCtx h ch n T t t') : n ∈ T.nodes := by
  have := label_mem_nodes T; rwa [C.sub.1] at this

theorem RootCtx.alive_mem (C : RootCtx h ch n T t t') {x : NodeId} (hx : x ∈ T.nodes) :
    h.alive x = true := C.shape.desc_alive C.alive ((C.sub.mem_nodes_iff x).1 hx)

/-- One step of the loop, for a node without handle. -/
theorem RootCtx.step_weak (C : RootCtx h ch n T t t') {D E pins : List NodeId} {x : NodeId}
    {u : Option TreeId} (hT : T.nodes = D ++ x :: E) (hm : h.mem x = .weak u) :
    (h.relabel D t t').setTreeCore pins x t' = .ok (some (h.relabel (D ++ [x]) t t')) := by
  have hnd := C.sub.nodup C.shape
  rw [hT, nodup_mid] at hnd
  have hxD := hnd.1
  have hmx : (h.relabel D t t').mem x = h.mem x := by simp [Heap.relabel, hxD]
  have hlk : h.lockedIn (D ++ [x]) = h.lockedIn D := by
    rw [lockedIn_append, lockedIn_one]; simp [Heap.locked, hm]
  unfold Heap.setTreeCore
  rw [hmx, hm]
  simp only
  congr 2
  have hmemeq : (h.relabel (D ++ [x]) t t').mem = upd (h.relabel D t t').mem x (.weak (some t')) := by
    funext y
    simp only [Heap.relabel, upd_apply, List.mem_append, List.mem_singleton]
    by_cases e : y = x
    · subst e; simp [hm, Membership.moveTo]
    · simp [e]
  have hgr : (h.relabel (D ++ [x]) t t').grants = (h.relabel D t t').grants := by
    simp only [Heap.relabel, hlk]
  have e1 : h.relabel (D ++ [x]) t t' = { (h.relabel D t t') with
    mem := (h.relabel (D ++ [x]) t t').mem, grants := (h.relabel (D ++ [x]) t t').grants } := rfl
  rw [e1, hmemeq, hgr]
  rfl

/-- One step of the loop, for a node with a handle: the old tree may go away. -/
theorem RootCtx.step_strong (C : RootCtx h ch n T t t') {D E pins : List NodeId} {x : NodeId}
    (hT : T.nodes = D ++ x :: E) (hs : IsStrong h x) {h3 : Heap α}
    (hd : (h.relabel (D ++ [x]) t t').maybeDropTree pins t = .ok h3) :
    (h.relabel D t t').setTreeCore pins x t' = .ok (some h3) := by
  obtain ⟨u, rc, l, hm⟩ := hs
  have hnd := C.sub.nodup C.shape
  rw [hT, nodup_mid] at hnd
  have hxD := hnd.1
  have hxT : x ∈ T.nodes := by simp [hT]
  have hmt := C.memb x hxT
  have hmx : (h.relabel D t t').mem x = h.mem x := by simp [Heap.relabel, hxD]
  simp only [Heap.memTree, hm, Option.some.injEq] at hmt
  subst hmt
  unfold Heap.setTreeCore
  rw [hmx, hm]
  simp only
  have hmemeq : (h.relabel (D ++ [x]) u t').mem = upd (h.relabel D u t').mem x (.strong t' rc l) := by
    funext y
    simp only [Heap.relabel, upd_apply, List.mem_append, List.mem_singleton]
    by_cases e : y = x
    · subst e; simp [hm, Membership.moveTo]
    · simp [e]
  have hfin : ∀ h1 : Heap α, h1 = { (h.relabel D u t') with grants := (h.relabel (D ++ [x]) u t').grants } →
      h1.setMem x (.strong t' rc l) = h.relabel (D ++ [x]) u t' := by
    intro h1 hh1
    have e2 : h.relabel (D ++ [x]) u t' = { (h.relabel D u t') with
      mem := (h.relabel (D ++ [x]) u t').mem, grants := (h.relabel (D ++ [x]) u t').grants } := rfl
    rw [e2, hmemeq, hh1]; rfl
  by_cases hl : l = 0
  · have hlk : h.lockedIn (D ++ [x]) = h.lockedIn D := by
      rw [lockedIn_append, lockedIn_one]; simp [Heap.locked, hm, hl]
    simp only [hl, ne_eq, not_true_eq_false, if_false]
    rw [← hl, hfin (h.relabel D u t'), hd]
    have : (h.relabel (D ++ [x]) u t').grants = (h.relabel D u t').grants := by
      simp only [Heap.relabel, hlk]
    rw [this]
  · have hlk : h.lockedIn (D ++ [x]) = h.lockedIn D + 1 := by
      rw [lockedIn_append, lockedIn_one]; simp [Heap.locked, hm, hl]
    have hle : h.lockedIn (D ++ [x]) ≤ h.lockedIn T.nodes := by
      have : T.nodes = (D ++ [x]) ++ E := by simp [hT]
      rw [this, lockedIn_append (A := D ++ [x])]; exact Nat.le_add_right _ _
    have g1 := C.grantsPos
    have g2 := C.grantsPos'
    have g3 := C.grantsMax
    have hgu : (h.relabel D u t').grants u = h.grants u - h.lockedIn D := by
      simp [Heap.relabel, C.ne]
    have hgt : (h.relabel D u t').grants t' = h.grants t' + h.lockedIn D := by
      simp [Heap.relabel]
    simp only [ne_eq, hl, not_false_eq_true, if_true]
    have htr : (h.relabel D u t').transferLock u t'
        = .ok (some { (h.relabel D u t') with grants := (h.relabel (D ++ [x]) u t').grants }) := by
      unfold Heap.transferLock Lock.acquireGrant
      rw [hgu, hgt]
      rw [if_pos (by omega), if_neg (by omega), if_neg (by omega)]
      simp only [Except.ok.injEq, Option.some.injEq]
      simp only [Heap.setGrants, upd_ne _ _ C.ne, hgu]
      congr 1
      funext v
      simp only [upd_apply, Heap.relabel, hlk]
      by_cases e1 : v = t'
      · subst e1; simp [Ne.symm C.ne]; omega
      · by_cases e2 : v = u
        · subst e2; simp [e1]; omega
        · simp [e1, e2]
    rw [htr]
    simp only
    rw [hfin _ rfl, hd]

/-- As long as something holds the old tree, the loop only relabels. -/
theorem RootCtx.step_held (C : RootCtx h ch n T t t') {D E pins : List NodeId} {x : NodeId}
    (hT : T.nodes = D ++ x :: E) (hh : Held (h.relabel (D ++ [x]) t t') t) :
    (h.relabel D t t').setTreeCore pins x t' = .ok (some (h.relabel (D ++ [x]) t t')) := by
  cases hm : h.mem x with
  | weak u => exact C.step_weak hT hm
  | strong u rc l =>
    refine C.step_strong hT ⟨u, rc, l, hm⟩ ?_
    show (h.relabel (D ++ [x]) t t').maybeDropTree pins t = .ok (h.relabel (D ++ [x]) t t')
    · unfold Heap.maybeDropTree
      rw [if_neg]
      intro hc
      simp only [Bool.and_eq_true, beq_iff_eq, Bool.not_eq_true'] at hc
      rcases hh with h1 | ⟨n, rc, l, h1, h2⟩
      · omega
      · have := hasStrongMember_iff.2 ⟨n, h2, rc, l, h1⟩
        rw [hc.2] at this; simp at this

theorem RootCtx.evNext (C : RootCtx h ch n T t t') {h2 : Heap α} (L : SameLinks h h2 T.nodes)
    {e : DftEvent NodeId} (he : e.value ∈ T.nodes) (hne : e ≠ .cls n) :
    h2.evNext e = h.evNext e := by
  cases e with
  | opn x =>
    simp only [DftEvent.value] at he
    simp only [Heap.evNext, Heap.firstChildLink, L.first x he]
  | cls x =>
    simp only [DftEvent.value] at he
    have hx : x ≠ n := fun e => hne (by rw [e])
    obtain ⟨y, hy, hxy⟩ : ∃ y ∈ T.nodes, x ∈ ch y := by
      rcases Hier.parent_in C.sub.2 he with h1 | h1
      · rw [C.sub.1] at h1; exact absurd h1 hx
      · exact h1
    simp only [Heap.evNext, Heap.nextLink, L.next x he, Heap.parentLink, L.parent x he,
      C.shape.parent_of_mem hxy, Heap.upgrade, Option.filter, L.alive y hy]

theorem RootCtx.release (C : RootCtx h ch n T t t') {h2 : Heap α} (L : SameLinks h h2 T.nodes)
    {x : NodeId} {held : List NodeId} (hx : x ∈ T.nodes) (hn : n ∈ held) :
    h2.release h2.relFuel held x = .ok h2 := by
  by_cases e : x = n
  · subst e; rw [Heap.relFuel, release_pinned hn]
  · obtain ⟨y, hy, hxy⟩ : ∃ y ∈ T.nodes, x ∈ ch y := by
      rcases Hier.parent_in C.sub.2 hx with h1 | h1
      · rw [C.sub.1] at h1; exact absurd h1 e
      · exact h1
    rw [Heap.relFuel, release_referenced]
    refine referenced_iff.2 (.inr (.inr ?_))
    obtain ⟨l1, l2, hs⟩ := exists_split hxy
    have hya := C.shape.alive_parent hxy
    rcases List.eq_nil_or_concat l1 with rfl | ⟨l, z, rfl⟩
    · refine ⟨y, ?_, ?_, .inl ?_⟩
      · rw [L.nNode]; exact C.shape.bound y hya
      · rw [L.alive y hy]; exact hya
      · rw [L.first y hy, C.shape.first y hya, hs]; simp
    · have hz : z ∈ ch y := by simp [hs]
      have hzT := Hier.closed T C.sub.2 y z hy hz
      have hza := C.shape.alive_of_mem hz
      refine ⟨z, ?_, ?_, .inr ?_⟩
      · rw [L.nNode]; exact C.shape.bound z hza
      · rw [L.alive z hzT]; exact hza
      · rw [L.next z hzT, C.shape.next_at (p := y) (n := z) (l1 := l) (l2 := x :: l2) (by simp [hs])]
        simp

theorem relabel_links (D A : List NodeId) : SameLinks h (h.relabel D t t') A := by
  constructor <;> first | rfl | (intro x hx; rfl)

/-- The loop over the first events `evs`, after which `ev` comes. -/
theorem RootCtx.prefix (C : RootCtx h ch n T t t') : ∀ (evs : List (DftEvent NodeId))
    (ev : DftEvent NodeId) (rest : List (DftEvent NodeId))
    (D : List NodeId) (f : Nat), EvChain h.evNext (evs ++ ev :: rest) → (∀ e ∈ evs, e ≠ .cls n) →
    (∀ e ∈ evs ++ ev :: rest, e.value ∈ T.nodes) → T.nodes = D ++ opens (evs ++ ev :: rest) →
    (∀ D', (∀ x ∈ D', x ∈ D ++ opens evs) → Held (h.relabel D' t t') t) →
    Heap.setMembLoop (f + evs.length) n t' (evs ++ ev :: rest).head? (h.relabel D t t')
      = Heap.setMembLoop f n t' (some ev) (h.relabel (D ++ opens evs) t t')
  | [], ev, rest, D, f, _, _, _, _, _ => by simp [opens]
  | e :: evs, ev, rest, D, f, hc, hne, hv, hT, hh => by
    obtain ⟨e2, evs2, he2⟩ : ∃ e2 evs2, evs ++ ev :: rest = e2 :: evs2 := by
      cases evs with
      | nil => exact ⟨_, _, rfl⟩
      | cons a l => exact ⟨_, _, rfl⟩
    have hne1 := hne e (by simp)
    have hve := hv e (by simp)
    have hve2 : e2.value ∈ T.nodes := hv e2 (by
      rw [List.cons_append, he2]; simp)
    have hc1 : h.evNext e = some e2 ∧ EvChain h.evNext (evs ++ ev :: rest) := by
      rw [List.cons_append, he2] at hc
      simp only [EvChain] at hc
      rw [he2]; exact hc
    have hnx : (h.relabel D t t').evNext e = some e2 := by
      rw [C.evNext (relabel_links D _) hve hne1]; exact hc1.1
    have ih := fun D' hT' hh' => RootCtx.prefix C evs ev rest D' f hc1.2
      (fun x hx => hne x (List.mem_cons_of_mem _ hx))
      (fun x hx => hv x (by rw [List.cons_append]; exact List.mem_cons_of_mem _ hx)) hT' hh'
    rw [he2] at ih
    simp only [List.cons_append, List.head?_cons, List.length_cons] at ih ⊢
    rw [← Nat.add_assoc]
    rw [Heap.setMembLoop]
    simp only [hne1, if_false, hnx]
    cases e with
    | opn x =>
      simp only [DftEvent.value] at hve
      simp only [List.cons_append, opens] at hT
      have hst := C.step_held (pins := x :: n :: [e2.value]) hT (hh _ (by
        intro y hy; simp only [opens, List.mem_append, List.mem_cons, List.not_mem_nil, or_false] at *
        rcases hy with hy | hy
        · exact .inl hy
        · exact .inr (.inl hy)))
      simp only [hst]
      rw [C.release (relabel_links _ _) hve (by simp)]
      simp only
      rw [ih (D ++ [x]) (by rw [← he2]; simpa using hT) (fun D' hD' => hh D' (by simpa [opens] using hD'))]
      simp [opens]
    | cls x =>
      simp only [DftEvent.value] at hve
      simp only [List.cons_append, opens] at hT
      simp only
      rw [C.release (relabel_links _ _) hve (by simp)]
      simp only
      rw [ih D (by rw [← he2]; exact hT) (fun D' hD' => hh D' (by simpa [opens] using hD'))]
      simp [opens]

/-- If a `Tree` holds the old tree core, all memberships are changed and nothing else happens. -/
theorem RootCtx.memb_held (C : RootCtx h ch n T t t') (hrc : 0 < h.treeRc t) :
    h.setMemberships n t' = .ok (some (h.relabel T.nodes t t')) := by
  have hlast := events_last T
  rw [C.sub.1] at hlast
  obtain ⟨evs, he⟩ : ∃ evs, T.events = evs ++ [.cls n] := by
    rcases List.eq_nil_or_concat T.events with h0 | ⟨l, b, h0⟩
    · exact absurd h0 (events_ne_nil T)
    · rw [List.concat_eq_append] at h0
      rw [h0] at hlast
      simp only [List.getLast?_append, List.getLast?_singleton, Option.some_or, Option.some.injEq] at hlast
      exact ⟨l, by rw [h0, hlast]⟩
  have hnd := events_nodup T (C.sub.nodup C.shape)
  have hlen : T.events.length ≤ 2 * h.nNode + 2 := by
    rw [events_length]
    have := C.sub.size_le C.shape C.alive
    omega
  have hchain := C.shape.evChain T C.sub.2 (by rw [C.sub.1]; exact C.alive)
  have hop := opens_events T
  have hval := mem_events_value T
  have hhead := events_head T
  rw [C.sub.1] at hhead
  rw [he] at hnd hchain hop hval hhead
  obtain ⟨f, hf⟩ : ∃ f, 2 * h.nNode + 2 = (f + 1) + evs.length := by
    refine ⟨2 * h.nNode + 1 - evs.length, ?_⟩
    rw [he, List.length_append] at hlen
    simp only [List.length_singleton] at hlen
    omega
  unfold Heap.setMemberships
  have := C.prefix evs (.cls n) [] [] (f + 1) hchain
    (fun e hm hx => by
      rw [List.nodup_append] at hnd
      exact hnd.2.2 e hm _ (List.mem_singleton.2 rfl) hx)
    (fun e hm => hval e hm) (by rw [hop]; rfl) (fun D' _ => .inl hrc)
  rw [hhead, relabel_nil C.ne] at this
  rw [hf, this]
  rw [opens_append] at hop
  simp only [opens, List.append_nil] at hop
  simp [Heap.setMembLoop, hop]

/-! ### Without a `Tree` the old tree core is destroyed on the way -/

/-- The nodes of `A` with handles. -/
def Heap.handlesIn (h : Heap α) (A : List NodeId) : List NodeId :=
  A.filter (fun x => match h.mem x with | .strong .. => true | .weak _ => false)

theorem mem_handlesIn {A : List NodeId} {x : NodeId} : x ∈ h.handlesIn A ↔ x ∈ A ∧ IsStrong h x := by
  unfold Heap.handlesIn IsStrong
  rw [List.mem_filter]
  refine and_congr_right fun _ => ?_
  cases h.mem x with
  | weak u => simp
  | strong u rc l => simp

/-- All nodes of `A` have moved to `t'`, then the tree core `t` has been destroyed. -/
def Heap.cleared (h : Heap α) (A : List NodeId) (t t' : TreeId) : Heap α :=
  (((h.relabel A t t').wipe A (h.handlesIn A)).setRoot t none).setGrants t 0

mutual
theorem events_open_close : ∀ (T : RTree NodeId) {a b : List (DftEvent NodeId)} {y : NodeId},
    T.events = a ++ .opn y :: b → .cls y ∈ b
  | .node v cs, a, b, y, he => by
    simp only [events] at he
    cases a with
    | nil =>
      simp only [List.nil_append, List.cons.injEq, DftEvent.opn.injEq] at he
      rw [← he.2, he.1]; simp
    | cons e a =>
      simp only [List.cons_append, List.cons.injEq] at he
      have he := he.2
      rw [List.append_eq_append_iff] at he
      rcases he with ⟨c, h1, h2⟩ | ⟨c, h1, h2⟩
      · cases c with
        | nil => simp at h2
        | cons z c => simp at h2
      · cases c with
        | nil => simp at h2
        | cons z c =>
          simp only [List.cons_append, List.cons.injEq] at h2
          obtain ⟨rfl, rfl⟩ := h2
          exact List.mem_append_left _ (eventsL_open_close cs h1)
theorem eventsL_open_close : ∀ (cs : List (RTree NodeId)) {a b : List (DftEvent NodeId)} {y : NodeId},
    eventsL cs = a ++ .opn y :: b → .cls y ∈ b
  | [], a, b, y, he => by simp [eventsL] at he
  | c :: cs, a, b, y, he => by
    simp only [eventsL] at he
    rw [List.append_eq_append_iff] at he
    rcases he with ⟨d, h1, h2⟩ | ⟨d, h1, h2⟩
    · exact eventsL_open_close cs h2
    · cases d with
      | nil =>
        simp only [List.nil_append] at h2
        exact eventsL_open_close cs (a := []) (by simpa using h2.symm)
      | cons z d =>
        simp only [List.cons_append, List.cons.injEq] at h2
        obtain ⟨rfl, rfl⟩ := h2
        exact List.mem_append_left _ (events_open_close c h1)
end

mutual
theorem events_close_parent : ∀ (T : RTree NodeId) {a b : List (DftEvent NodeId)} {y : NodeId},
    Hier ch T → T.events = a ++ .cls y :: b → y = T.label ∨ ∃ q, y ∈ ch q ∧ .cls q ∈ b
  | .node v cs, a, b, y, hT, he => by
    simp only [events] at he
    simp only [Hier] at hT
    cases a with
    | nil => simp at he
    | cons e a =>
      simp only [List.cons_append, List.cons.injEq] at he
      have he := he.2
      rw [List.append_eq_append_iff] at he
      have key : ∀ {c : List (DftEvent NodeId)}, eventsL cs = a ++ .cls y :: c →
          b = c ++ [.cls v] → y = v ∨ ∃ q, y ∈ ch q ∧ .cls q ∈ b := by
        rintro c h1 rfl
        rcases eventsL_close_parent cs hT.2 h1 with h2 | ⟨q, h2, h3⟩
        · exact .inr ⟨v, by rw [← hT.1]; exact h2, by simp⟩
        · exact .inr ⟨q, h2, List.mem_append_left _ h3⟩
      rcases he with ⟨c, h1, h2⟩ | ⟨c, h1, h2⟩
      · cases c with
        | nil => simp at h2; exact .inl h2.1.symm
        | cons z c => simp at h2
      · cases c with
        | nil => simp at h2; exact .inl h2.1
        | cons z c =>
          simp only [List.cons_append, List.cons.injEq] at h2
          obtain ⟨rfl, rfl⟩ := h2
          exact key h1 rfl
theorem eventsL_close_parent : ∀ (cs : List (RTree NodeId)) {a b : List (DftEvent NodeId)} {y : NodeId},
    HierL ch cs → eventsL cs = a ++ .cls y :: b → y ∈ cs.map label ∨ ∃ q, y ∈ ch q ∧ .cls q ∈ b
  | [], a, b, y, hT, he => by simp [eventsL] at he
  | c :: cs, a, b, y, hT, he => by
    simp only [eventsL] at he
    simp only [HierL] at hT
    rw [List.append_eq_append_iff] at he
    rcases he with ⟨d, h1, h2⟩ | ⟨d, h1, h2⟩
    · rcases eventsL_close_parent cs hT.2 h2 with h3 | h3
      · exact .inl (by simp [List.mem_map] at h3 ⊢; exact .inr h3)
      · exact .inr h3
    · cases d with
      | nil =>
        simp only [List.nil_append] at h2
        rcases eventsL_close_parent cs (a := []) hT.2 (by simpa using h2.symm) with h3 | h3
        · exact .inl (by simp [List.mem_map] at h3 ⊢; exact .inr h3)
        · exact .inr h3
      | cons z d =>
        simp only [List.cons_append, List.cons.injEq] at h2
        obtain ⟨rfl, rfl⟩ := h2
        rcases events_close_parent c hT.1 h1 with h3 | ⟨q, h3, h4⟩
        · exact .inl (by simp [h3])
        · exact .inr ⟨q, h3, List.mem_append_left _ h4⟩
end

theorem opens_split : ∀ (evs : List (DftEvent NodeId)) {D E : List NodeId} {m : NodeId},
    opens evs = D ++ m :: E → ∃ a b, evs = a ++ .opn m :: b ∧ opens a = D ∧ opens b = E
  | [], D, E, m, he => by simp [opens] at he
  | .cls v :: l, D, E, m, he => by
    simp only [opens] at he
    obtain ⟨a, b, h1, h2, h3⟩ := opens_split l he
    exact ⟨.cls v :: a, b, by simp [h1], by simpa [opens] using h2, h3⟩
  | .opn v :: l, D, E, m, he => by
    simp only [opens] at he
    cases D with
    | nil =>
      simp only [List.nil_append, List.cons.injEq] at he
      exact ⟨[], l, by simp [he.1], rfl, he.2⟩
    | cons d D =>
      simp only [List.cons_append, List.cons.injEq] at he
      obtain ⟨a, b, h1, h2, h3⟩ := opens_split l he.2
      exact ⟨.opn v :: a, b, by simp [h1], by simp [opens, h2, he.1], h3⟩

theorem exists_last {P : NodeId → Prop} [DecidablePred P] : ∀ (l : List NodeId), (∃ x ∈ l, P x) →
    ∃ D m E, l = D ++ m :: E ∧ P m ∧ ∀ x ∈ E, ¬ P x
  | [], hx => by obtain ⟨x, hx, _⟩ := hx; simp at hx
  | a :: l, hx => by
    by_cases hl : ∃ x ∈ l, P x
    · obtain ⟨D, m, E, h1, h2, h3⟩ := exists_last l hl
      exact ⟨a :: D, m, E, by simp [h1], h2, h3⟩
    · refine ⟨[], a, l, rfl, ?_, fun x hm hp => hl ⟨x, hm, hp⟩⟩
      obtain ⟨x, hm, hp⟩ := hx
      rcases List.mem_cons.1 hm with rfl | hm
      · exact hp
      · exact absurd ⟨x, hm, hp⟩ hl

theorem relabel_strong {D : List NodeId} {x : NodeId} : IsStrong (h.relabel D t t') x ↔ IsStrong h x := by
  unfold IsStrong
  simp only [Heap.relabel]
  by_cases e : x ∈ D
  · simp only [e, if_true]
    cases h.mem x <;> simp [Membership.moveTo]
  · simp only [e, if_false]

theorem cleared_alive {A : List NodeId} {x : NodeId} (hx : x ∈ A) (ha : h.alive x = true) :
    (h.cleared A t t').alive x = true ↔ x ∈ h.handlesIn A := by
  have : (h.cleared A t t').alive x = ((h.relabel A t t').wipe A (h.handlesIn A)).alive x := rfl
  rw [this, Heap.wipe_alive]
  have ha' : (h.relabel A t t').alive x = true := ha
  by_cases e : x ∈ h.handlesIn A <;> simp [hx, e, ha']

theorem cleared_strong {A : List NodeId} {x : NodeId} (hx : x ∈ h.handlesIn A) :
    IsStrong (h.cleared A t t') x := by
  have h1 : (h.cleared A t t').mem x = (h.relabel A t t').mem x := by
    simp [Heap.cleared, Heap.setGrants, Heap.setRoot, Heap.wipe, hx]
  obtain ⟨u, rc, l, hm⟩ := (relabel_strong (t := t) (t' := t') (D := A)).2 (mem_handlesIn.1 hx).2
  exact ⟨u, rc, l, by rw [h1]; exact hm⟩

/-- After the destruction of the old tree the loop climbs to the root, or stops at a freed node. -/
theorem RootCtx.climb (C : RootCtx h ch n T t t') : ∀ (f : Nat) {a b : List (DftEvent NodeId)} {y : NodeId},
    T.events = a ++ .cls y :: b → y ∈ h.handlesIn T.nodes → b.length < f →
    Heap.setMembLoop f n t' (some (.cls y)) (h.cleared T.nodes t t')
      = .ok (some (h.cleared T.nodes t t'))
  | 0, a, b, y, _, _, hf => by omega
  | f + 1, a, b, y, he, hy, hf => by
    rw [Heap.setMembLoop]
    by_cases hyn : y = n
    · simp [hyn]
    rw [if_neg (by simpa using hyn)]
    have hyT := (mem_handlesIn.1 hy).1
    rcases events_close_parent T C.sub.2 he with h1 | ⟨q, hq, hqb⟩
    · rw [C.sub.1] at h1; exact absurd h1 hyn
    have hnext : (h.cleared T.nodes t t').next y = none := by
      simp [Heap.cleared, Heap.setGrants, Heap.setRoot, Heap.wipe, hyT]
    have hpar : (h.cleared T.nodes t t').parent y = some q := by
      simp [Heap.cleared, Heap.setGrants, Heap.setRoot, Heap.wipe, hy, Heap.relabel,
        C.shape.parent_of_mem hq]
    have hqT : q ∈ T.nodes := by
      have := mem_events_value T (.cls q) (by rw [he]; simp [hqb])
      exact this
    have hnx : (h.cleared T.nodes t t').evNext (.cls y)
        = if q ∈ h.handlesIn T.nodes then some (.cls q) else none := by
      simp only [Heap.evNext, Heap.nextLink, hnext, Heap.parentLink, hpar, Heap.upgrade, Option.filter]
      by_cases e : q ∈ h.handlesIn T.nodes
      · rw [if_pos e, if_pos ((cleared_alive hqT (C.alive_mem hqT)).2 e)]; rfl
      · rw [if_neg e, if_neg (fun hh => e ((cleared_alive hqT (C.alive_mem hqT)).1 hh))]; rfl
    simp only
    have hrel : ∀ k held, (h.cleared T.nodes t t').release (k + 1) held y
        = .ok (h.cleared T.nodes t t') := fun k held =>
      release_referenced (cleared_strong hy).referenced
    rw [Heap.relFuel, hrel, hnx]
    simp only
    by_cases e : q ∈ h.handlesIn T.nodes
    · rw [if_pos e]
      obtain ⟨b1, b2, hb⟩ := List.append_of_mem hqb
      refine C.climb f (a := a ++ .cls y :: b1) (b := b2) (by simp [he, hb]) e ?_
      rw [hb, List.length_append, List.length_cons] at hf; omega
    · rw [if_neg e]; cases f <;> rfl

/-- Only the memberships of nodes with handles matter once the others are freed. -/
theorem RootCtx.cleared_eq (C : RootCtx h ch n T t t') {D E : List NodeId} {m : NodeId}
    (hT : T.nodes = D ++ m :: E) (hE : ∀ x ∈ E, ¬ IsStrong h x) {keep : List NodeId}
    (hk : ∀ x, x ∈ keep ↔ x ∈ h.handlesIn T.nodes) :
    (((h.relabel (D ++ [m]) t t').wipe T.nodes keep).setRoot t none).setGrants t 0
      = h.cleared T.nodes t t' := by
  have hlkE : h.lockedIn E = 0 := by
    unfold Heap.lockedIn
    rw [List.length_eq_zero_iff, List.filter_eq_nil_iff]
    intro x hx hl
    apply hE x hx
    unfold Heap.locked at hl
    cases hm : h.mem x with
    | weak u => simp [hm] at hl
    | strong u rc l => exact ⟨u, rc, l, hm⟩
  have hlk : h.lockedIn (D ++ [m]) = h.lockedIn T.nodes := by
    have : T.nodes = (D ++ [m]) ++ E := by simp [hT]
    rw [this, lockedIn_append (A := D ++ [m]), hlkE]; rfl
  have hst : ∀ x, x ∈ T.nodes → x ∈ h.handlesIn T.nodes → x ∈ D ++ [m] := by
    intro x hx hh
    rw [hT] at hx
    have := (mem_handlesIn.1 hh).2
    simp only [List.mem_append, List.mem_cons, List.not_mem_nil, or_false] at hx ⊢
    rcases hx with hx | hx | hx
    · exact .inl hx
    · exact .inr hx
    · exact absurd this (hE x hx)
  have hDT : ∀ x, x ∈ D ++ [m] → x ∈ T.nodes := by
    intro x hx
    rw [hT]
    simp only [List.mem_append, List.mem_cons, List.not_mem_nil, or_false] at hx ⊢
    rcases hx with hx | hx
    · exact .inl hx
    · exact .inr (.inl hx)
  have hmem : ∀ x, (if x ∈ T.nodes ∧ x ∉ h.handlesIn T.nodes then Membership.weak none
        else if x ∈ D ++ [m] then (h.mem x).moveTo t' else h.mem x)
      = if x ∈ T.nodes ∧ x ∉ h.handlesIn T.nodes then .weak none
        else if x ∈ T.nodes then (h.mem x).moveTo t' else h.mem x := by
    intro x
    by_cases e : x ∈ T.nodes ∧ x ∉ h.handlesIn T.nodes
    · rw [if_pos e, if_pos e]
    · rw [if_neg e, if_neg e]
      by_cases e2 : x ∈ T.nodes
      · rw [if_pos e2, if_pos (hst x e2 (Classical.byContradiction fun e3 => e ⟨e2, e3⟩))]
      · rw [if_neg e2, if_neg (fun e3 => e2 (hDT x e3))]
  have hk' : ∀ x, (x ∈ T.nodes ∧ x ∉ keep) = (x ∈ T.nodes ∧ x ∉ h.handlesIn T.nodes) := by
    intro x; rw [hk]
  unfold Heap.cleared
  simp only [Heap.wipe, Heap.setRoot, Heap.setGrants, Heap.relabel, hk', hlk, hmem]

/-- Destruction of the old tree core when the last node with a handle has moved. -/
theorem RootCtx.dropAt (C : RootCtx h ch n T t t') (hrc : h.treeRc t = 0) {D E : List NodeId} {m v : NodeId}
    (hT : T.nodes = D ++ m :: E) (hm : IsStrong h m) (hE : ∀ x ∈ E, ¬ IsStrong h x)
    (hv : v ∈ T.nodes) :
    (h.relabel (D ++ [m]) t t').maybeDropTree [m, n, v] t
      = .ok ((((h.relabel (D ++ [m]) t t').wipe T.nodes (v :: h.handlesIn T.nodes)).setRoot t none).setGrants t 0) := by
  have hnT := C.n_mem
  have hmT : m ∈ T.nodes := by simp [hT]
  have hns : (h.relabel (D ++ [m]) t t').hasStrongMember t = false := by
    rw [Bool.eq_false_iff]
    intro hh
    obtain ⟨x, _, rc, l, hx⟩ := hasStrongMember_iff.1 hh
    by_cases e : x ∈ D ++ [m]
    · have := relabel_memTree (h := h) (t := t) (t' := t') (D := D ++ [m]) (x := x)
      rw [if_pos e] at this
      simp only [Heap.memTree, hx, Option.some.injEq] at this
      exact C.ne this
    · have hx' := strong_of_relabel e hx
      have hxT := C.all x rc l hx'
      rw [hT] at hxT
      simp only [List.mem_append, List.mem_cons, List.not_mem_nil, or_false, not_or] at hxT e
      rcases hxT with h1 | h1 | h1
      · exact e.1 h1
      · exact e.2 h1
      · exact hE x h1 ⟨t, rc, l, hx'⟩
  have hal : (h.relabel (D ++ [m]) t t').treeAlive t = true := by
    show (h.root t).isSome = true
    rw [C.root]; rfl
  have hrc' : (h.relabel (D ++ [m]) t t').treeRc t = 0 := hrc
  unfold Heap.maybeDropTree
  rw [if_pos (by simp [hal, hrc', hns])]
  have S : DropShape (h.relabel (D ++ [m]) t t') ch := by
    have := C.shape.dropShape
    exact ⟨this.first, this.nodup, this.mem, this.seg, this.nextRef, this.bound⟩
  have hnh : n ∈ h.handlesIn T.nodes := mem_handlesIn.2 ⟨hnT, C.strong⟩
  unfold Heap.dropTree
  refine dropTree_keep S C.tbound C.root C.alive C.rpar C.sub (C.sub.nodup C.shape)
    (show T.nodes.length ≤ h.nNode from C.sub.size_le C.shape C.alive) ?_ ?_
  · intro x hx hxn
    by_cases e1 : x = v
    · exact .inl ⟨by simp [e1], .inl (by simp [e1])⟩
    by_cases e2 : IsStrong h x
    · exact .inl ⟨List.mem_cons_of_mem _ (mem_handlesIn.2 ⟨hx, e2⟩), .inr (relabel_strong.2 e2)⟩
    · refine .inr ⟨?_, ?_, ?_, ?_⟩
      · simp only [List.mem_cons, e1, false_or]
        exact fun h1 => e2 (mem_handlesIn.1 h1).2
      · simp only [List.mem_cons, List.not_mem_nil, or_false, e1, not_or]
        exact ⟨fun h1 => e2 (h1 ▸ hm), hxn⟩
      · intro u rc l h1
        exact e2 (relabel_strong.1 ⟨u, rc, l, h1⟩)
      · intro u h1
        exact hxn (C.rroot x hx u h1).2
  · exact .inl ⟨List.mem_cons_of_mem _ hnh, .inr (relabel_strong.2 C.strong)⟩

theorem Heap.wipe_congr {A k1 k2 : List NodeId} (hk : ∀ x, x ∈ k1 ↔ x ∈ k2) : h.wipe A k1 = h.wipe A k2 := by
  unfold Heap.wipe
  simp only [hk]

/-- A freed child that is still pinned is visited and freed. -/
theorem RootCtx.visit (C : RootCtx h ch n T t t') {D E : List NodeId} {m c : NodeId} {f : Nat}
    {a b : List (DftEvent NodeId)}
    (hT : T.nodes = D ++ m :: E) (hm : IsStrong h m) (hE : ∀ x ∈ E, ¬ IsStrong h x)
    (hc : c ∈ E) (hcm : c ∈ ch m) (he : T.events = a ++ .opn m :: .opn c :: b) (hf : b.length < f + 1) :
    Heap.setMembLoop (f + 2) n t' (some (.opn c))
      ((((h.relabel (D ++ [m]) t t').wipe T.nodes (c :: h.handlesIn T.nodes)).setRoot t none).setGrants t 0)
      = .ok (some (h.cleared T.nodes t t')) := by
  have hnd := C.sub.nodup C.shape
  have hcT : c ∈ T.nodes := by simp [hT, hc]
  have hmT : m ∈ T.nodes := by simp [hT]
  have hcw := hE c hc
  have hch : c ∉ h.handlesIn T.nodes := fun h1 => hcw (mem_handlesIn.1 h1).2
  have hmh : m ∈ h.handlesIn T.nodes := mem_handlesIn.2 ⟨hmT, hm⟩
  have hcD : c ∉ D ++ [m] := by
    rw [hT, show D ++ m :: E = (D ++ [m]) ++ E by simp, List.nodup_append] at hnd
    exact fun h1 => hnd.2.2 c h1 c hc rfl
  have hcn : c ≠ n := by rintro rfl; exact hcw C.strong
  have hcm' : m ≠ c := by rintro rfl; exact hcw hm
  obtain ⟨k, hk⟩ : ∃ k, k = (((h.relabel (D ++ [m]) t t').wipe T.nodes (c :: h.handlesIn T.nodes)).setRoot t none).setGrants t 0 := ⟨_, rfl⟩
  rw [← hk]
  have hkfc : ∀ x ∈ T.nodes, k.firstChild x = none := by
    intro x hx; rw [hk]; simp [Heap.setGrants, Heap.setRoot, Heap.wipe, hx]
  have hknx : ∀ x ∈ T.nodes, k.next x = none := by
    intro x hx; rw [hk]; simp [Heap.setGrants, Heap.setRoot, Heap.wipe, hx]
  have hkmem : ∃ u, k.mem c = .weak u := by
    have : k.mem c = h.mem c := by
      rw [hk]; simp [Heap.setGrants, Heap.setRoot, Heap.wipe, Heap.relabel] ; simp only [List.mem_append, List.mem_singleton, not_or] at hcD; simp [hcD]
    rw [this]
    cases hmc : h.mem c with
    | weak u => exact ⟨u, rfl⟩
    | strong u rc l => exact absurd ⟨u, rc, l, hmc⟩ hcw
  have hkpar : k.parent c = some m := by
    rw [hk]; simp [Heap.setGrants, Heap.setRoot, Heap.wipe, Heap.relabel, C.shape.parent_of_mem hcm]
  have hkal : ∀ x, k.alive x = if x ∈ T.nodes ∧ x ∉ c :: h.handlesIn T.nodes then false else h.alive x := by
    intro x
    have : k.alive x = ((h.relabel (D ++ [m]) t t').wipe T.nodes (c :: h.handlesIn T.nodes)).alive x := by
      rw [hk]; rfl
    rw [this, Heap.wipe_alive]; rfl
  have hkm : k.alive m = true := by rw [hkal]; simp [hmh, C.alive_mem hmT]
  have hkc : k.alive c = true := by rw [hkal]; simp [C.alive_mem hcT]
  obtain ⟨u, hu⟩ := hkmem
  -- the first visit
  rw [Heap.setMembLoop, if_neg (by simp)]
  have hev1 : k.evNext (.opn c) = some (.cls c) := by
    simp [Heap.evNext, Heap.firstChildLink, hkfc c hcT]
  have hset : ∀ pins, k.setTreeCore pins c t' = .ok (some (k.setMem c (.weak (some t')))) := by
    intro pins; unfold Heap.setTreeCore; rw [hu]
  simp only [hev1, hset]
  rw [Heap.relFuel, release_pinned (by simp [DftEvent.value])]
  simp only
  -- the second one
  rw [Heap.setMembLoop, if_neg (by simpa using hcn)]
  have hev2 : (k.setMem c (.weak (some t'))).evNext (.cls c) = some (.cls m) := by
    have h1 : (k.setMem c (.weak (some t'))).alive m = true := hkm
    have h2 : (k.setMem c (.weak (some t'))).parent c = some m := hkpar
    have h3 : (k.setMem c (.weak (some t'))).next c = none := hknx c hcT
    simp [Heap.evNext, Heap.nextLink, h3, Heap.parentLink, h2, Heap.upgrade, Option.filter, h1]
  simp only [hev2]
  have hfin : (k.setMem c (.weak (some t'))).kill c = h.cleared T.nodes t t' := by
    rw [← C.cleared_eq hT hE (keep := h.handlesIn T.nodes) (fun x => Iff.rfl), hk]
    simp only [Heap.kill, Heap.setMem, Heap.setGrants, Heap.setRoot, Heap.wipe]
    congr 1 <;> funext x <;> by_cases e : x = c <;> simp [e, upd_apply, hcT, hch]
  have hnref : (k.setMem c (.weak (some t'))).referenced c = false := by
    rw [Bool.eq_false_iff]
    intro hr
    rcases referenced_iff.1 hr with ⟨u, rc, l, h1⟩ | ⟨u, _, h1⟩ | ⟨x, _, hx, h1⟩
    · simp [Heap.setMem] at h1
    · have h2 : k.root u = some c := h1
      rw [hk] at h2
      simp only [Heap.setGrants, Heap.setRoot, Heap.wipe, Heap.relabel, upd_apply] at h2
      split at h2
      · cases h2
      · exact hcn (C.rroot c hcT u h2).2
    · have hx : k.alive x = true := hx
      have h1 : k.firstChild x = some c ∨ k.next x = some c := h1
      have hxT : x ∉ T.nodes := by
        intro hxT
        rw [hkfc x hxT, hknx x hxT] at h1
        simp at h1
      have hxa : h.alive x = true := by
        rw [hkal] at hx; simpa [hxT] using hx
      have h2 : h.firstChild x = some c ∨ h.next x = some c := by
        rw [hk] at h1
        simpa [Heap.setGrants, Heap.setRoot, Heap.wipe, hxT, Heap.relabel] using h1
      rcases h2 with h2 | h2
      · rw [C.shape.first x hxa] at h2
        have := C.shape.unique_parent (List.mem_of_mem_head? h2) hcm
        exact hxT (this ▸ hmT)
      · obtain ⟨q, h3, h4⟩ := C.shape.dropShape.nextRef x c hxa h2
        have := C.shape.unique_parent h4 hcm
        subst this
        exact hxT (Hier.closed T C.sub.2 q x hmT h3)
  have hrel : ∀ k', (k.setMem c (.weak (some t'))).release (k' + 1) [n, m] c
      = .ok (h.cleared T.nodes t t') := by
    intro k'
    rw [release_leaf (h := k.setMem c (.weak (some t'))) hkc hnref (by simp [hcn, Ne.symm hcm'])
      (hkfc c hcT) (hknx c hcT), hfin]
  simp only [DftEvent.value, Heap.relFuel, hrel]
  have hclose : .cls c ∈ b := events_open_close T (a := a ++ [.opn m]) (by simpa using he)
  obtain ⟨b1, b2, hb⟩ := List.append_of_mem hclose
  have he2 : T.events = (a ++ .opn m :: .opn c :: b1) ++ .cls c :: b2 := by rw [he, hb]; simp
  rcases events_close_parent T C.sub.2 he2 with h1 | ⟨q, hq, hqb⟩
  · rw [C.sub.1] at h1; exact absurd h1 hcn
  · have := C.shape.unique_parent hq hcm
    subst this
    obtain ⟨d1, d2, hd⟩ := List.append_of_mem hqb
    refine C.climb f (a := (a ++ .opn q :: .opn c :: b1) ++ .cls c :: d1) (b := d2) (by simp [he2, hd]) hmh ?_
    rw [hb, hd] at hf
    simp only [List.length_append, List.length_cons] at hf
    omega

/-- Without a `Tree` the old tree core is destroyed on the way, and with it all links between the
moved nodes. -/
theorem RootCtx.memb_drop (C : RootCtx h ch n T t t') (hrc : h.treeRc t = 0) :
    h.setMemberships n t' = .ok (some (h.cleared T.nodes t t')) := by
  have hnd := C.sub.nodup C.shape
  have : DecidablePred (IsStrong h) := fun x => Classical.propDecidable _
  obtain ⟨D, m, E, hT, hm, hE⟩ := exists_last (P := IsStrong h) T.nodes ⟨n, C.n_mem, C.strong⟩
  obtain ⟨a, b, he, ha, hb⟩ := opens_split T.events (D := D) (E := E) (m := m) (by rw [opens_events, hT])
  have hmT : m ∈ T.nodes := by simp [hT]
  have hmh : m ∈ h.handlesIn T.nodes := mem_handlesIn.2 ⟨hmT, hm⟩
  have hchain := C.shape.evChain T C.sub.2 (by rw [C.sub.1]; exact C.alive)
  have hval := mem_events_value T
  have hhead := events_head T
  have hlast := events_last T
  have hend := events_nodup T hnd
  have hlen : T.events.length ≤ 2 * h.nNode := by
    rw [events_length]
    have := C.sub.size_le C.shape C.alive
    omega
  rw [C.sub.1] at hhead hlast
  rw [he] at hchain hval hhead hlast hend hlen
  have hbne : b ≠ [] := by
    rintro rfl
    simp at hlast
  have hlastb : b.getLast? = some (.cls n) := by
    rw [List.getLast?_append, List.getLast?_cons_of_ne_nil hbne] at hlast
    cases hbl : b.getLast? with
    | none => rw [List.getLast?_eq_none_iff] at hbl; exact absurd hbl hbne
    | some z => rw [hbl] at hlast; simpa using hlast
  obtain ⟨e1, b', hb'⟩ : ∃ e1 b', b = e1 :: b' := by
    cases b with
    | nil => exact absurd rfl hbne
    | cons x l => exact ⟨x, l, rfl⟩
  obtain ⟨f, hf⟩ : ∃ f, 2 * h.nNode + 2 = (f + 1) + a.length := by
    refine ⟨2 * h.nNode + 1 - a.length, ?_⟩
    simp only [List.length_append, List.length_cons] at hlen; omega
  have hfb : b.length + 1 ≤ f := by
    simp only [List.length_append, List.length_cons] at hlen; omega
  unfold Heap.setMemberships
  have hpre := C.prefix a (.opn m) b [] (f + 1) hchain
    (fun e hma hx => by
      rw [List.nodup_append] at hend
      exact hend.2.2 e hma (.cls n) (List.mem_cons_of_mem _ (List.mem_of_getLast? hlastb)) hx)
    (fun e hm => hval e hm) (by rw [← he, opens_events]; rfl)
    (fun D' hD' => by
      obtain ⟨u, rc, l, hms⟩ := hm
      have hmt := C.memb m hmT
      simp only [Heap.memTree, hms, Option.some.injEq] at hmt
      subst hmt
      refine .inr ⟨m, rc, l, ?_, C.shape.bound m (C.alive_mem hmT)⟩
      have hmD : m ∉ D' := by
        intro h1
        have := hD' m h1
        rw [ha] at this
        rw [hT, nodup_mid] at hnd
        exact hnd.1 (by simpa using this)
      simp [Heap.relabel, hmD, hms])
  rw [hhead, relabel_nil C.ne, ha, List.nil_append] at hpre
  rw [hf, hpre]
  -- the last node with a handle
  have hnx : (h.relabel D t t').evNext (.opn m) = some e1 := by
    rw [C.evNext (e := .opn m) (relabel_links D _) hmT (by simp)]
    have : ∀ (l : List (DftEvent NodeId)), EvChain h.evNext (l ++ .opn m :: b) → h.evNext (.opn m) = some e1 := by
      intro l
      induction l with
      | nil => intro h1; rw [hb'] at h1; exact h1.1
      | cons x l ih =>
        intro h1
        apply ih
        cases l with
        | nil => exact h1.2
        | cons y l => exact h1.2
    exact this a hchain
  have hve1 : e1.value ∈ T.nodes := hval e1 (by simp [hb'])
  rw [Heap.setMembLoop, if_neg (by simp)]
  simp only [hnx]
  rw [C.step_strong hT hm (C.dropAt hrc hT hm hE hve1)]
  simp only
  have hmk : IsStrong ((((h.relabel (D ++ [m]) t t').wipe T.nodes (e1.value :: h.handlesIn T.nodes)).setRoot t none).setGrants t 0) m := by
    obtain ⟨u, rc, l, h1⟩ := (relabel_strong (t := t) (t' := t') (D := D ++ [m])).2 hm
    exact ⟨u, rc, l, by simpa [Heap.setGrants, Heap.setRoot, Heap.wipe, hmh] using h1⟩
  rw [Heap.relFuel, release_referenced hmk.referenced]
  simp only
  have hev := C.shape.first m (C.alive_mem hmT)
  have hnx' : h.evNext (.opn m) = some e1 := by
    rw [← C.evNext (e := .opn m) (relabel_links D _) hmT (by simp)]; exact hnx
  simp only [Heap.evNext, Heap.firstChildLink, hev] at hnx'
  cases hcm : (ch m).head? with
  | none =>
    rw [hcm] at hnx'
    simp only [Option.some.injEq] at hnx'
    subst hnx'
    rw [C.cleared_eq hT hE (fun x => by
      simp only [DftEvent.value, List.mem_cons]
      exact ⟨fun h1 => h1.elim (fun h2 => h2 ▸ hmh) id, .inr⟩)]
    exact C.climb f (a := a ++ [.opn m]) (b := b') (by rw [he, hb']; simp) hmh (by
      rw [hb', List.length_cons] at hfb; omega)
  | some c =>
    rw [hcm] at hnx'
    simp only [Option.some.injEq] at hnx'
    subst hnx'
    have hcE : c ∈ E := by rw [← hb, hb']; simp [opens]
    obtain ⟨g, rfl⟩ : ∃ g, f = g + 2 := ⟨f - 2, by rw [hb', List.length_cons] at hfb; omega⟩
    simp only [DftEvent.value]
    exact C.visit hT hm hE hcE (List.mem_of_mem_head? hcm) (by rw [he, hb'])
      (by rw [hb', List.length_cons] at hfb; omega)

end Dendron
