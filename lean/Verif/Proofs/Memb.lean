import Verif.Proofs.Drop
import Verif.Proofs.Linked
import Verif.Model.Edit
import Verif.Spec.Move

/-! `set_memberships_of_descendants_and_self`. -/

set_option linter.unusedSimpArgs false
set_option linter.unusedVariables false

set_option autoImplicit false

namespace Dendron
open RTree
variable {α : Type} {h h' : Heap α} {ch : NodeId → List NodeId} {n p : NodeId} {t t' : TreeId}

/-- All nodes of `D` have moved from tree `t` to `t'`, with their locks (edit grants). -/
def Heap.relabel (h : Heap α) (D : List NodeId) (t t' : TreeId) : Heap α :=
  { h with
    mem := fun x => if x ∈ D then (h.mem x).moveTo t' else h.mem x
    grants := fun u => if u = t' then h.grants t' + h.lockedIn D
      else if u = t then h.grants t - h.lockedIn D else h.grants u }

/-- The tree core `t` with nodes `R` is destroyed. -/
def Heap.dropped (h : Heap α) (t : TreeId) (R : List NodeId) : Heap α :=
  ((h.wipe R []).setRoot t none).setGrants t 0

/-- The tree core `t` with nodes `R` is destroyed if nothing holds it. -/
def Heap.settle (h : Heap α) (t : TreeId) (R : List NodeId) : Heap α :=
  if h.treeAlive t && h.treeRc t == 0 && !h.hasStrongMember t then h.dropped t R else h

/-- What `set_memberships_of_descendants_and_self` relies on: the subtree `T` at `n` is not linked to
the rest `R` of its tree `t` any more, whose root is `r`. -/
structure MoveCtx (h : Heap α) (ch : NodeId → List NodeId) (n : NodeId) (T : RTree NodeId)
    (t t' : TreeId) (r : NodeId) (R : RTree NodeId) : Prop where
  shape : FShape h ch
  sub : SubtreeAt ch n T
  alive : h.alive n = true
  memb : ∀ x ∈ T.nodes, h.memTree x = some t
  ne : t ≠ t'
  grantsPos : (h.lockedIn T.nodes : Int) ≤ h.grants t
  grantsPos' : 0 ≤ h.grants t'
  grantsMax : h.grants t' + h.lockedIn T.nodes ≤ Lock.isizeMax
  tbound : t < h.nTree
  root : h.root t = some r
  ralive : h.alive r = true
  rpar : h.parent r = none
  rsub : SubtreeAt ch r R
  rmemb : ∀ x ∈ R.nodes, h.memTree x = some t
  rroot : ∀ x ∈ R.nodes, ∀ u, h.root u = some x → u = t ∧ x = r
  disj : ∀ x ∈ R.nodes, x ∉ T.nodes
  salive : ∀ x u rc l, h.mem x = .strong u rc l → h.alive x = true
  held : Held h t

variable {T R : RTree NodeId} {r : NodeId}

theorem relabel_memTree {D : List NodeId} {x : NodeId} :
    (h.relabel D t t').memTree x = if x ∈ D then some t' else h.memTree x := by
  simp only [Heap.memTree, Heap.relabel]
  by_cases e : x ∈ D
  · simp only [e, if_true]; cases h.mem x <;> rfl
  · simp only [e, if_false]

theorem relabel_nil (hne : t ≠ t') : h.relabel [] t t' = h := by
  unfold Heap.relabel Heap.lockedIn
  simp only [List.not_mem_nil, if_false, List.filter_nil, List.length_nil]
  congr 1
  funext u
  by_cases e : u = t'
  · subst e; simp
  · by_cases e2 : u = t
    · subst e2; simp [e]
    · simp [e, e2]

theorem strong_of_relabel {D : List NodeId} {x : NodeId} {u : TreeId} {rc l : Nat} (hx : x ∉ D)
    (hm : (h.relabel D t t').mem x = .strong u rc l) : h.mem x = .strong u rc l := by
  simpa [Heap.relabel, hx] using hm

/-- Destruction of the old tree at some point of the loop. -/
theorem MoveCtx.maybeDrop (C : MoveCtx h ch n T t t' r R) {D pins : List NodeId}
    (hD : ∀ x ∈ D, x ∈ T.nodes) (hpins : ∀ x ∈ pins, x ∈ T.nodes) :
    (h.relabel D t t').maybeDropTree pins t = .ok ((h.relabel D t t').settle t R.nodes) := by
  unfold Heap.maybeDropTree Heap.settle
  split
  · next hc =>
    simp only [Bool.and_eq_true, beq_iff_eq, Bool.not_eq_true'] at hc
    have hns : ∀ x ∈ R.nodes, ∀ u rc l, (h.relabel D t t').mem x ≠ .strong u rc l := by
      intro x hx u rc l hm
      have hxD : x ∉ D := fun e => C.disj x hx (hD x e)
      have hm' := strong_of_relabel hxD hm
      have hmt := C.rmemb x hx
      simp only [Heap.memTree, hm', Option.some.injEq] at hmt
      subst hmt
      have := (hasStrongMember_iff (h := h.relabel D u t')).2
        ⟨x, C.shape.bound x (C.salive _ _ _ _ hm'), rc, l, hm⟩
      rw [hc.2] at this; simp at this
    have S : DropShape (h.relabel D t t') ch := by
      have := C.shape.dropShape
      exact ⟨this.first, this.nodup, this.mem, this.seg, this.nextRef, this.bound⟩
    rw [dropTree_spec S C.tbound C.root C.ralive C.rpar C.rsub (C.rsub.nodup C.shape)
      (show R.nodes.length ≤ h.nNode from C.rsub.size_le C.shape C.ralive) ?_ ?_ ?_]
    · unfold Heap.dropped
      congr 3
      unfold Heap.wipe
      have hp : ∀ x, (x ∈ R.nodes ∧ x ∉ pins) ↔ (x ∈ R.nodes ∧ x ∉ ([] : List NodeId)) := by
        intro x
        refine and_congr_right (fun hx => ?_)
        simp only [List.not_mem_nil, not_false_eq_true, iff_true]
        exact fun e => C.disj x hx (hpins x e)
      simp only [hp]
    · intro x hx hxr
      refine ⟨hns x hx, fun u hu => hxr (C.rroot x hx u hu).2⟩
    · exact hns r (by have := label_mem_nodes R; rwa [C.rsub.1] at this)
    · intro u hu hur
      exact hu (C.rroot r (by have := label_mem_nodes R; rwa [C.rsub.1] at this) u hur).1
  · rfl

theorem settle_held {h : Heap α} {A : List NodeId} (hh : Held h t) : h.settle t A = h := by
  unfold Heap.settle
  rw [if_neg]
  intro hc
  simp only [Bool.and_eq_true, beq_iff_eq, Bool.not_eq_true'] at hc
  rcases hh with h1 | ⟨n, rc, l, h1, h2⟩
  · omega
  · have := hasStrongMember_iff.2 ⟨n, h2, rc, l, h1⟩
    rw [hc.2] at this; simp at this

theorem lockedIn_append {A B : List NodeId} :
    h.lockedIn (A ++ B) = h.lockedIn A + h.lockedIn B := by
  simp [Heap.lockedIn]

theorem lockedIn_one {x : NodeId} : h.lockedIn [x] = if h.locked x then 1 else 0 := by
  unfold Heap.lockedIn
  by_cases e : h.locked x <;> simp [e]

/-- One step of the loop. -/
theorem MoveCtx.step (C : MoveCtx h ch n T t t' r R) {D E pins : List NodeId} {x : NodeId}
    (hT : T.nodes = D ++ x :: E) (hpins : ∀ x ∈ pins, x ∈ T.nodes) :
    ((h.relabel D t t').settle t R.nodes).setTreeCore pins x t'
      = .ok (some ((h.relabel (D ++ [x]) t t').settle t R.nodes)) := by
  have hnd := C.sub.nodup C.shape
  rw [hT, nodup_mid] at hnd
  have hxD := hnd.1
  have hxT : x ∈ T.nodes := by simp [hT]
  have hxR : x ∉ R.nodes := fun e => C.disj x e hxT
  have hDT : ∀ y ∈ D, y ∈ T.nodes := by intro y hy; simp [hT, hy]
  have hDxT : ∀ y ∈ D ++ [x], y ∈ T.nodes := by
    intro y hy
    rcases List.mem_append.1 hy with hy | hy
    · exact hDT y hy
    · simp only [List.mem_singleton] at hy; subst hy; exact hxT
  have hmt := C.memb x hxT
  have hmx : (h.relabel D t t').mem x = h.mem x := by simp [Heap.relabel, hxD]
  have hxN : x < h.nNode :=
    C.shape.bound x (C.shape.desc_alive C.alive ((C.sub.mem_nodes_iff x).1 hxT))
  cases hm : h.mem x with
  | weak u =>
    have hlk : h.lockedIn (D ++ [x]) = h.lockedIn D := by
      rw [lockedIn_append, lockedIn_one]; simp [Heap.locked, hm]
    have hset : ((h.relabel D t t').settle t R.nodes).mem x = .weak u := by
      unfold Heap.settle
      split
      · simp [Heap.dropped, Heap.setRoot, Heap.setGrants, Heap.wipe, hxR, hmx, hm]
      · rw [hmx, hm]
    unfold Heap.setTreeCore
    rw [hset]
    simp only
    congr 2
    have hmemeq : (h.relabel (D ++ [x]) t t').mem = upd (h.relabel D t t').mem x (.weak (some t')) := by
      funext y
      simp only [Heap.relabel, upd_apply, List.mem_append, List.mem_singleton]
      by_cases e : y = x
      · subst e; simp [hm, Membership.moveTo]
      · simp [e]
    have hgr : (h.relabel (D ++ [x]) t t').grants = (h.relabel D t t').grants := by
      simp only [Heap.relabel, hlk]
    have hrel : h.relabel (D ++ [x]) t t' = (h.relabel D t t').setMem x (.weak (some t')) := by
      have e1 : h.relabel (D ++ [x]) t t' = { (h.relabel D t t') with
        mem := (h.relabel (D ++ [x]) t t').mem, grants := (h.relabel (D ++ [x]) t t').grants } := rfl
      rw [e1, hmemeq, hgr]
      rfl
    have hss : (h.relabel (D ++ [x]) t t').hasStrongMember t
        = (h.relabel D t t').hasStrongMember t := by
      rw [Bool.eq_iff_iff, hasStrongMember_iff, hasStrongMember_iff]
      refine exists_congr (fun y => and_congr Iff.rfl ?_)
      refine exists_congr (fun rc => exists_congr (fun l => ?_))
      rw [hmemeq, upd_apply]
      by_cases e : y = x
      · subst e; simp [hmx, hm]
      · simp [e]
    unfold Heap.settle
    rw [hss]
    have ht1 : (h.relabel (D ++ [x]) t t').treeAlive t = (h.relabel D t t').treeAlive t := rfl
    have ht2 : (h.relabel (D ++ [x]) t t').treeRc t = (h.relabel D t t').treeRc t := rfl
    rw [ht1, ht2, hrel]
    split
    · simp only [Heap.dropped, Heap.setRoot, Heap.setGrants, Heap.wipe, Heap.setMem]
      congr 1
      funext y
      by_cases e : y = x
      · subst e; simp [hxR]
      · simp [e, upd_apply]
    · rfl
  | strong u rc l =>
    simp only [Heap.memTree, hm, Option.some.injEq] at hmt
    subst hmt
    have hheld : Held (h.relabel D u t') u := .inr ⟨x, rc, l, by rw [hmx, hm], hxN⟩
    rw [settle_held hheld]
    unfold Heap.setTreeCore
    rw [hmx, hm]
    simp only
    have hmemeq : (h.relabel (D ++ [x]) u t').mem = upd (h.relabel D u t').mem x (.strong t' rc l) := by
      funext y
      simp only [Heap.relabel, upd_apply, List.mem_append, List.mem_singleton]
      by_cases e : y = x
      · subst e; simp [hm, Membership.moveTo]
      · simp [e]
    have hfin : ∀ h1 : Heap α, h1 = { (h.relabel D u t') with grants := (h.relabel (D ++ [x]) u t').grants } →
        (match (h1.setMem x (.strong t' rc l)).maybeDropTree pins u with
          | .error e => (.error e : Except Fault (Option (Heap α)))
          | .ok h3 => .ok (some h3))
        = .ok (some ((h.relabel (D ++ [x]) u t').settle u R.nodes)) := by
      intro h1 hh1
      have e1 : h1.setMem x (.strong t' rc l) = h.relabel (D ++ [x]) u t' := by
        have e2 : h.relabel (D ++ [x]) u t' = { (h.relabel D u t') with
          mem := (h.relabel (D ++ [x]) u t').mem, grants := (h.relabel (D ++ [x]) u t').grants } := rfl
        rw [e2, hmemeq, hh1]; rfl
      rw [e1, C.maybeDrop hDxT hpins]
    by_cases hl : l = 0
    · have hlk : h.lockedIn (D ++ [x]) = h.lockedIn D := by
        rw [lockedIn_append, lockedIn_one]; simp [Heap.locked, hm, hl]
      simp only [hl, ne_eq, not_true_eq_false, if_false]
      rw [← hl]
      apply hfin
      have : (h.relabel (D ++ [x]) u t').grants = (h.relabel D u t').grants := by
        simp only [Heap.relabel, hlk]
      rw [this]
    · have hlk : h.lockedIn (D ++ [x]) = h.lockedIn D + 1 := by
        rw [lockedIn_append, lockedIn_one]; simp [Heap.locked, hm, hl]
      have hle : h.lockedIn (D ++ [x]) ≤ h.lockedIn T.nodes := by
        have : T.nodes = (D ++ [x]) ++ E := by simp [hT]
        rw [this, lockedIn_append (A := D ++ [x])]; exact Nat.le_add_right _ _
      have g1 := C.grantsPos
      have g2 := C.grantsPos'
      have g3 := C.grantsMax
      have hgu : (h.relabel D u t').grants u = h.grants u - h.lockedIn D := by
        simp [Heap.relabel, C.ne]
      have hgt : (h.relabel D u t').grants t' = h.grants t' + h.lockedIn D := by
        simp [Heap.relabel]
      simp only [ne_eq, hl, not_false_eq_true, if_true]
      have htr : (h.relabel D u t').transferLock u t'
          = .ok (some { (h.relabel D u t') with grants := (h.relabel (D ++ [x]) u t').grants }) := by
        unfold Heap.transferLock Lock.acquireGrant
        rw [hgu, hgt]
        rw [if_pos (by omega), if_neg (by omega), if_neg (by omega)]
        simp only [Except.ok.injEq, Option.some.injEq]
        simp only [Heap.setGrants, upd_ne _ _ C.ne, hgu]
        congr 1
        funext v
        simp only [upd_apply, Heap.relabel, hlk]
        by_cases e1 : v = t'
        · subst e1; simp [Ne.symm C.ne]; omega
        · by_cases e2 : v = u
          · subst e2; simp [e1]; omega
          · simp [e1, e2]
      rw [htr]
      exact hfin _ rfl

/-! ### The loop -/

/-- The nodes opened by a list of events. -/
def opens : List (DftEvent NodeId) → List NodeId
  | [] => []
  | .opn v :: l => v :: opens l
  | .cls _ :: l => opens l

theorem opens_append : ∀ (a b : List (DftEvent NodeId)), opens (a ++ b) = opens a ++ opens b
  | [], _ => rfl
  | .opn v :: l, b => by simp [opens, opens_append l b]
  | .cls v :: l, b => by simp [opens, opens_append l b]

mutual
theorem opens_events : ∀ T : RTree NodeId, opens T.events = T.nodes
  | .node v cs => by simp [events, nodes, opens, opens_append, opens_eventsL cs]
theorem opens_eventsL : ∀ cs : List (RTree NodeId), opens (eventsL cs) = nodesL cs
  | [] => rfl
  | c :: cs => by simp [eventsL, nodesL, opens_append, opens_events c, opens_eventsL cs]
end

mutual
theorem mem_events_value : ∀ (T : RTree NodeId) (e : DftEvent NodeId), e ∈ T.events → e.value ∈ T.nodes
  | .node v cs, e, he => by
    simp only [events, List.mem_cons, List.mem_append, List.mem_singleton, nodes] at *
    rcases he with rfl | he | rfl | he
    · exact .inl rfl
    · exact .inr (mem_eventsL_value cs e he)
    · exact .inl rfl
    · simp at he
theorem mem_eventsL_value : ∀ (cs : List (RTree NodeId)) (e : DftEvent NodeId), e ∈ eventsL cs →
    e.value ∈ nodesL cs
  | [], e, he => by simp [eventsL] at he
  | c :: cs, e, he => by
    simp only [eventsL, nodesL, List.mem_append] at *
    rcases he with he | he
    · exact .inl (mem_events_value c e he)
    · exact .inr (mem_eventsL_value cs e he)
end

/-- The links of the nodes in `A` are as in `h`, and they are alive. -/
structure SameLinks (h h2 : Heap α) (A : List NodeId) : Prop where
  alive : ∀ x ∈ A, h2.alive x = h.alive x
  parent : ∀ x ∈ A, h2.parent x = h.parent x
  first : ∀ x ∈ A, h2.firstChild x = h.firstChild x
  next : ∀ x ∈ A, h2.next x = h.next x
  nNode : h2.nNode = h.nNode

theorem MoveCtx.sameLinks (C : MoveCtx h ch n T t t' r R) (D : List NodeId) :
    SameLinks h ((h.relabel D t t').settle t R.nodes) T.nodes := by
  have hR : ∀ x ∈ T.nodes, x ∉ R.nodes := fun x hx e => C.disj x e hx
  unfold Heap.settle
  split
  · constructor
    · intro x hx
      have : ((h.relabel D t t').dropped t R.nodes).alive x
        = ((h.relabel D t t').wipe R.nodes []).alive x := rfl
      rw [this, Heap.wipe_alive]; simp only [hR x hx, false_and, if_false]; rfl
    all_goals first
      | rfl
      | (intro x hx
         simp [Heap.dropped, Heap.setRoot, Heap.setGrants, Heap.wipe, hR x hx, Heap.relabel])
  · constructor <;> first | rfl | (intro x hx; rfl)

theorem MoveCtx.evNext (C : MoveCtx h ch n T t t' r R) {h2 : Heap α} (L : SameLinks h h2 T.nodes)
    {e : DftEvent NodeId} (he : e.value ∈ T.nodes) (hne : e ≠ .cls n) :
    h2.evNext e = h.evNext e := by
  cases e with
  | opn x =>
    simp only [DftEvent.value] at he
    simp only [Heap.evNext, Heap.firstChildLink, L.first x he]
  | cls x =>
    simp only [DftEvent.value] at he
    have hx : x ≠ n := fun e => hne (by rw [e])
    obtain ⟨y, hy, hxy⟩ : ∃ y ∈ T.nodes, x ∈ ch y := by
      rcases Hier.parent_in C.sub.2 he with h1 | h1
      · rw [C.sub.1] at h1; exact absurd h1 hx
      · exact h1
    simp only [Heap.evNext, Heap.nextLink, L.next x he, Heap.parentLink, L.parent x he,
      C.shape.parent_of_mem hxy, Heap.upgrade, Option.filter, L.alive y hy]

theorem MoveCtx.release (C : MoveCtx h ch n T t t' r R) {h2 : Heap α} (L : SameLinks h h2 T.nodes)
    {x : NodeId} {held : List NodeId} (hx : x ∈ T.nodes) (hn : n ∈ held) :
    h2.release h2.relFuel held x = .ok h2 := by
  by_cases e : x = n
  · subst e; rw [Heap.relFuel, release_pinned hn]
  · obtain ⟨y, hy, hxy⟩ : ∃ y ∈ T.nodes, x ∈ ch y := by
      rcases Hier.parent_in C.sub.2 hx with h1 | h1
      · rw [C.sub.1] at h1; exact absurd h1 e
      · exact h1
    rw [Heap.relFuel, release_referenced]
    refine referenced_iff.2 (.inr (.inr ?_))
    obtain ⟨l1, l2, hs⟩ := exists_split hxy
    have hya := C.shape.alive_parent hxy
    rcases List.eq_nil_or_concat l1 with rfl | ⟨l, z, rfl⟩
    · refine ⟨y, ?_, ?_, .inl ?_⟩
      · rw [L.nNode]; exact C.shape.bound y hya
      · rw [L.alive y hy]; exact hya
      · rw [L.first y hy, C.shape.first y hya, hs]; simp
    · have hz : z ∈ ch y := by simp [hs]
      have hzT := Hier.closed T C.sub.2 y z hy hz
      have hza := C.shape.alive_of_mem hz
      refine ⟨z, ?_, ?_, .inr ?_⟩
      · rw [L.nNode]; exact C.shape.bound z hza
      · rw [L.alive z hzT]; exact hza
      · rw [L.next z hzT, C.shape.next_at (p := y) (n := z) (l1 := l) (l2 := x :: l2) (by simp [hs])]
        simp

theorem MoveCtx.loop (C : MoveCtx h ch n T t t' r R) : ∀ (evs : List (DftEvent NodeId))
    (D : List NodeId) (f : Nat), EvChain h.evNext evs → evs.getLast? = some (.cls n) → evs.Nodup →
    (∀ e ∈ evs, e.value ∈ T.nodes) → T.nodes = D ++ opens evs → evs.length ≤ f →
    Heap.setMembLoop f n t' evs.head? ((h.relabel D t t').settle t R.nodes)
      = .ok (some ((h.relabel T.nodes t t').settle t R.nodes))
  | [], D, f, _, hl, _, _, _, _ => by simp at hl
  | [e], D, f, _, hl, _, _, hT, hf => by
    simp only [List.getLast?_singleton, Option.some.injEq] at hl
    subst hl
    cases f with
    | zero => simp at hf
    | succ f =>
      simp only [opens, List.append_nil] at hT
      simp [Heap.setMembLoop, hT]
  | e :: e2 :: evs, D, f, hc, hl, hnd, hv, hT, hf => by
    have hne : e ≠ .cls n := by
      rintro rfl
      rw [List.getLast?_cons_cons] at hl
      exact (List.nodup_cons.1 hnd).1 (List.mem_of_getLast? hl)
    have hve := hv e (by simp)
    have hve2 := hv e2 (by simp)
    simp only [EvChain] at hc
    cases f with
    | zero => simp at hf
    | succ f =>
      have hL := C.sameLinks D
      have hnx : ((h.relabel D t t').settle t R.nodes).evNext e = some e2 := by
        rw [C.evNext hL hve hne]; exact hc.1
      have hnT : n ∈ T.nodes := by have := label_mem_nodes T; rwa [C.sub.1] at this
      have ih := fun D' hT' => MoveCtx.loop C (e2 :: evs) D' f hc.2
        (by simpa [List.getLast?_cons_cons] using hl)
        (List.nodup_cons.1 hnd).2 (fun x hx => hv x (List.mem_cons_of_mem _ hx)) hT'
        (by simpa using hf)
      simp only [List.head?_cons] at ih ⊢
      unfold Heap.setMembLoop
      simp only [hne, if_false, hnx]
      cases e with
      | opn x =>
        simp only [DftEvent.value] at hve
        simp only [opens] at hT
        have hst := C.step (pins := x :: n :: [e2.value]) hT (by
          intro y hy
          simp only [List.mem_cons, List.not_mem_nil, or_false] at hy
          rcases hy with rfl | rfl | rfl <;> assumption)
        simp only [hst]
        have hL2 := C.sameLinks (D ++ [x])
        rw [C.release hL2 hve (by simp)]
        simp only
        exact ih (D ++ [x]) (by simpa using hT)
      | cls x =>
        simp only [DftEvent.value] at hve
        simp only [opens] at hT
        simp only
        rw [C.release hL hve (by simp)]
        simp only
        exact ih D hT

/-- Effect of `set_memberships_of_descendants_and_self`. -/
theorem MoveCtx.setMemberships (C : MoveCtx h ch n T t t' r R) :
    h.setMemberships n t' = .ok (some ((h.relabel T.nodes t t').settle t R.nodes)) := by
  have hnd := C.sub.nodup C.shape
  have h0 : (h.relabel [] t t').settle t R.nodes = h := by
    rw [relabel_nil C.ne, settle_held C.held]
  have hlen : T.events.length ≤ 2 * h.nNode + 2 := by
    rw [events_length]
    have := C.sub.size_le C.shape C.alive
    omega
  have := C.loop T.events [] (2 * h.nNode + 2)
    (C.shape.evChain T C.sub.2 (by rw [C.sub.1]; exact C.alive))
    (by rw [events_last, C.sub.1]) (events_nodup T hnd) (mem_events_value T)
    (by rw [opens_events]; simp) hlen
  rw [h0, events_head, C.sub.1] at this
  exact this

end Dendron
