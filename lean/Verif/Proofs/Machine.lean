import Verif.Spec.Machine
import Verif.Proofs.WorldWide
import Verif.Proofs.WorldFacts
import Verif.Proofs.DataFrame

/-! The calls refine the abstract machine: states with right pointers. -/

set_option linter.unusedSimpArgs false
set_option linter.unusedVariables false

set_option autoImplicit false

namespace Dendron
variable {α : Type} {h h' : Heap α} {w w' v : World α} {a b : Forest α} {ch ch' : NodeId → List NodeId}
  {n m r p q : NodeId} {t t' : TreeId} {k : Kind} {op : Op α} {au : Auth} {l1 l2 m1 m2 : List NodeId}

/-! ### The number of trees -/

/-- If the computation returns, the number of trees is the same. -/
def SameNt (N : TreeId) (r : Except Fault (Heap α)) : Prop := ∀ h, r = .ok h → h.nTree = N

theorem sameNt_release : ∀ {f : Nat} {pins : List NodeId} {n : NodeId} {h : Heap α},
    SameNt h.nTree (h.release f pins n)
  | 0, _, _, _ => fun _ e => by cases e
  | f + 1, pins, n, h => by
    intro h' e
    unfold Heap.release at e
    split at e
    · cases e; rfl
    · simp only at e
      have step : ∀ {o : Option NodeId} {g g' : Heap α},
          (match o with | some c => g.release f pins c | none => .ok g) = .ok g' → g'.nTree = g.nTree := by
        intro o g g' e
        cases o with
        | none => cases e; rfl
        | some c => exact sameNt_release _ e
      split at e
      · cases e
      · rename_i e1
        exact (step e).trans (step (g := h.kill n) e1)

theorem sameNt_dropStep {f : Nat} {pins : List NodeId} {x : NodeId} : SameNt h.nTree (h.dropStep f pins x) := by
  intro h' e
  unfold Heap.dropStep at e
  split at e
  · rename_i p hp
    simp only [bind, Except.bind] at e
    split at e
    · cases e
    · rename_i h2 e2
      have c2 : h2.nTree = h.nTree := by
        split at e2
        · exact sameNt_release (h := (h.setNext x none).setFirst p (h.next x)) _ e2
        · cases e2; rfl
      split at e
      · cases e
      · rename_i h3 e3
        exact (sameNt_release _ e).trans ((sameNt_release _ e3).trans c2)
  · exact sameNt_release _ e

theorem sameNt_dropLoop {c : Nat} : ∀ {f : Nat} {pins : List NodeId} {ev : Option (DftEvent NodeId)}
    {h : Heap α}, SameNt h.nTree (h.dropLoop c f pins ev)
  | f, _, none, h => by intro h' e; cases f <;> (cases e; rfl)
  | 0, _, some _, _ => fun _ e => by cases e
  | f + 1, pins, some ev, h => by
    intro h' e
    unfold Heap.dropLoop at e
    simp only at e
    split at e
    · split at e
      · cases e
      · rename_i e1
        exact (sameNt_dropLoop _ e).trans (sameNt_release _ e1)
    · split at e
      · cases e
      · rename_i e1
        exact (sameNt_dropLoop _ e).trans (sameNt_dropStep _ e1)

theorem sameNt_maybeDropTree {pins : List NodeId} : SameNt h.nTree (h.maybeDropTree pins t) := by
  intro h' e
  unfold Heap.maybeDropTree at e
  split at e
  · unfold Heap.dropTree Heap.dropTreeWith at e
    split at e
    · cases e; rfl
    · split at e
      · cases e
      · rename_i e1
        rename_i _ h2
        refine (sameNt_release (h := (h2.setRoot t none).setGrants t 0) _ e).trans ?_
        exact (sameNt_dropLoop _ e1 : h2.nTree = h.nTree)
  · cases e; rfl

theorem sameNt_dropLink : SameNt h.nTree (h.dropLink n) := by
  intro h' e
  unfold Heap.dropLink at e
  simp only [bind, Except.bind] at e
  split at e
  · cases e
  · rename_i h1 e1
    refine (sameNt_release _ e).trans ?_
    unfold Heap.decRef at e1
    split at e1
    · cases e1
    · split at e1
      · split at e1
        · cases e1
        · exact sameNt_maybeDropTree (h := h.setMem n (.weak (some _))) _ e1
      · cases e1; rfl

theorem sameNt_relTree {pins : List NodeId} : SameNt h.nTree (h.relTree pins t) :=
  fun _ e => sameNt_maybeDropTree (h := h.setTreeRc t _) _ e

theorem sameNt_dropHandle : SameNt h.nTree (h.dropHandle n k) := by
  have main : SameNt h.nTree (do let h ← h.decLock n; h.dropLink n) := by
    intro h' e
    simp only [bind, Except.bind] at e
    split at e
    · cases e
    · rename_i h1 e1
      refine (sameNt_dropLink _ e).trans ?_
      unfold Heap.decLock at e1
      grind [Heap.setMem, Heap.setGrants]
  cases k with
  | plain => exact sameNt_dropLink
  | hot => exact main
  | frozen => exact main

/-! ### Reading an abstract state -/

theorem Shows.alive (S : Shows w a) : w.heap.alive n = true ↔ a.data n ≠ none := by
  rw [S.data]; simp [Heap.alive, Option.isSome_iff_ne_none]

theorem Shows.tree_of (S : Shows w a) (ha : w.heap.alive n = true) : a.tree n = w.heap.memTree n := by
  rw [S.tree, ha]; rfl

theorem Shows.tree_some (S : Shows w a) (e : a.tree n = some t) :
    w.heap.alive n = true ∧ w.heap.memTree n = some t := by
  rw [S.tree] at e
  cases ha : w.heap.alive n with
  | true => rw [ha] at e; exact ⟨rfl, e⟩
  | false => simp [ha] at e

theorem Shows.granted (S : Shows w a) (I : Inv w ch) : a.Granted t ↔ w.GrantAlive t := by
  unfold Forest.Granted World.GrantAlive
  rw [S.grantTok, S.held]
  constructor
  · rintro (h1 | ⟨x, h1, h2⟩)
    · exact .inl h1
    · exact .inr ⟨x, h1, (I.nodeTree_held h1).2 (S.tree_some h2).2⟩
  · rintro (h1 | ⟨x, h1, h2⟩)
    · exact .inl h1
    · exact .inr ⟨x, h1, by rw [S.tree_of (I.held_alive h1)]; exact (I.nodeTree_held h1).1 h2⟩

theorem Shows.prohibited (S : Shows w a) (I : Inv w ch) : a.Prohibited t ↔ w.ProhAlive t := by
  unfold Forest.Prohibited World.ProhAlive
  rw [S.prohTok, S.held]
  constructor
  · rintro (h1 | ⟨x, h1, h2⟩)
    · exact .inl h1
    · exact .inr ⟨x, h1, (I.nodeTree_held h1).2 (S.tree_some h2).2⟩
  · rintro (h1 | ⟨x, h1, h2⟩)
    · exact .inl h1
    · exact .inr ⟨x, h1, by rw [S.tree_of (I.held_alive h1)]; exact (I.nodeTree_held h1).1 h2⟩

theorem Shows.refused (S : Shows w a) (I : Inv w ch) (hta : w.heap.treeAlive t = true) (c : Bool) :
    a.Refused t c ↔ if c then w.heap.grants t < 0 else 0 < w.heap.grants t := by
  obtain ⟨h1, h2⟩ := I.alive_locks hta
  cases c with
  | true => exact (S.prohibited I).trans h2
  | false => exact (S.granted I).trans h1

theorem Shows.fits (S : Shows w a) (ha : w.heap.alive n = true) : a.Fits n au ↔ TokenFits w.heap n au := by
  cases au with
  | hot => exact Iff.rfl
  | token t => show a.tree n = some t ↔ w.heap.memTree n = some t; rw [S.tree_of ha]

/-- What only concerns handles. -/
theorem Shows.still (S : Shows w a) (s : Still w.heap w'.heap) (hc : b.children = a.children)
    (hd : b.data = a.data) (hb : b.borrowed = a.borrowed) (ht : b.tree = a.tree) (hr : b.root = a.root)
    (hn : b.newNode = a.newNode) (hnt : b.newTree = a.newTree) (h1 : b.held = w'.held) (h2 : b.trees = w'.trees)
    (h3 : b.grantTok = w'.grantTok) (h4 : b.prohTok = w'.prohTok) : Shows w' b where
  children := by
    have F := S.children
    rw [hc]
    have e : ∀ x, w'.heap.alive x = w.heap.alive x := s.alive
    refine ⟨?_, ?_, F.nodup, ?_, ?_, ?_, F.acyc, ?_⟩
    · intro p hp; exact F.dead p ((e p).symm.trans hp)
    · intro p hp; rw [s.firstChild]; exact F.first p ((e p).symm.trans hp)
    · intro p c; rw [F.mem, e, s.parent]
    · rw [s.next]; exact F.seg
    · intro c hc; rw [s.next, s.parent]; exact F.rootNext c ((e c).symm.trans hc)
    · intro x hx; rw [s.nNode]; exact F.bound x ((e x).symm.trans hx)
  data := by rw [hd, S.data, s.data]
  borrowed x := by rw [hb, S.borrowed, s.alive, s.mutB]
  tree x := by rw [ht, S.tree, s.alive, s.memTree]
  root := by rw [hr, S.root, s.root]
  newNode := by rw [hn, S.newNode, s.nNode]
  newTree := by rw [hnt, S.newTree, s.nTree]
  held := h1
  trees := h2
  grantTok := h3
  prohTok := h4

/-- The state after trees have vanished. -/
theorem Inv.shows_sweep (I : Inv w' ch') (h1 : b.held = w'.held) (h2 : b.trees = w'.trees)
    (h3 : b.grantTok = w'.grantTok) (h4 : b.prohTok = w'.prohTok) (hn : b.newNode = w'.heap.nNode)
    (hnt : b.newTree = w'.heap.nTree)
    (live : ∀ x, w'.heap.alive x = true → b.data x = w'.heap.data x ∧ b.borrowed x = w'.heap.mutB x ∧
      b.children x = ch' x ∧ b.tree x = w'.heap.memTree x)
    (dead : ∀ x t, w'.heap.alive x = false → b.tree x = some t → w'.heap.treeAlive t = false)
    (root : ∀ t, w'.heap.treeAlive t = true → b.root t = w'.heap.root t) : Shows w' b.sweep := by
  have hh : ∀ t, b.Holds t ↔ w'.heap.treeAlive t = true := by
    intro t
    rw [← I.treeHeld_iff]
    unfold Forest.Holds World.TreeHeld
    rw [h1, h2]
    constructor
    · rintro (h | ⟨k, x, h, e⟩)
      · exact .inl h
      · exact .inr ⟨k, x, h, (I.nodeTree_held h).2 (by rw [← (live x (I.held_alive h)).2.2.2]; exact e)⟩
    · rintro (h | ⟨k, x, h, e⟩)
      · exact .inl h
      · exact .inr ⟨k, x, h, by rw [(live x (I.held_alive h)).2.2.2]; exact (I.nodeTree_held h).1 e⟩
  have hs : ∀ x, (∃ t, b.tree x = some t ∧ b.Holds t) ↔ w'.heap.alive x = true := by
    intro x
    constructor
    · rintro ⟨t, e, ht⟩
      cases ha : w'.heap.alive x with
      | true => rfl
      | false => have e1 := (hh t).1 ht; rw [dead x t ha e] at e1; cases e1
    · intro ha
      obtain ⟨t, e, hta⟩ := I.wf.tree.live x ha
      exact ⟨t, by rw [(live x ha).2.2.2]; exact e, (hh t).2 hta⟩
  have hch : b.sweep.children = ch' := by
    funext x
    simp only [Forest.sweep]
    split
    · rename_i e; exact (live x ((hs x).1 e)).2.2.1
    · rename_i e
      cases ha : w'.heap.alive x with
      | true => exact absurd ((hs x).2 ha) e
      | false => exact (I.wf.dead x ha).symm
  refine ⟨by rw [hch]; exact I.wf.toFShape, ?_, ?_, ?_, ?_, hn, hnt, h1, h2, h3, h4⟩
  · funext x
    simp only [Forest.sweep]
    split
    · rename_i e; exact (live x ((hs x).1 e)).1
    · rename_i e
      cases ha : w'.heap.alive x with
      | true => exact absurd ((hs x).2 ha) e
      | false => simp [Heap.alive] at ha; exact ha.symm
  · intro x
    simp only [Forest.sweep]
    split
    · rename_i e
      have ha := (hs x).1 e
      rw [ha, (live x ha).2.1]; rfl
    · rename_i e
      cases ha : w'.heap.alive x with
      | true => exact absurd ((hs x).2 ha) e
      | false => rfl
  · intro x
    simp only [Forest.sweep]
    split
    · rename_i e
      have ha := (hs x).1 e
      rw [ha, (live x ha).2.2.2]; rfl
    · rename_i e
      cases ha : w'.heap.alive x with
      | true => exact absurd ((hs x).2 ha) e
      | false => rfl
  · funext t
    simp only [Forest.sweep]
    split
    · rename_i e; exact root t ((hh t).1 e)
    · rename_i e
      have : ¬ w'.heap.treeAlive t = true := fun h => e ((hh t).2 h)
      simp [Heap.treeAlive] at this
      exact this.symm

theorem Inv.shows_drop (I : Inv w ch) (S : Shows w a) (I' : Inv w' ch')
    (K : Keeps w.heap w'.heap ch ch' NoTree NoNode) (hnn : w'.heap.nNode = w.heap.nNode)
    (hnt : w'.heap.nTree = w.heap.nTree) (hc : b.children = a.children)
    (hd : b.data = a.data) (hb : b.borrowed = a.borrowed) (ht : b.tree = a.tree) (hr : b.root = a.root)
    (hn : b.newNode = a.newNode) (hnt' : b.newTree = a.newTree) (h1 : b.held = w'.held) (h2 : b.trees = w'.trees)
    (h3 : b.grantTok = w'.grantTok) (h4 : b.prohTok = w'.prohTok) : Shows w' b.sweep := by
  have ec : a.children = ch := S.children.unique I.wf.toFShape
  have old : ∀ x, w'.heap.alive x = true → w.heap.alive x = true := by
    intro x ha'
    cases e : w.heap.alive x with
    | true => rfl
    | false =>
      have := K.fresh x (by rw [← hnn]; exact I'.wf.bound x ha') e
      rw [ha'] at this; cases this
  refine I'.shows_sweep h1 h2 h3 h4 (by rw [hn, S.newNode, hnn]) (by rw [hnt', S.newTree, hnt]) ?_ ?_ ?_
  · intro x ha'
    have ha := old x ha'
    obtain ⟨t, ht', hta⟩ := I.wf.tree.live x ha
    obtain ⟨e1, e2⟩ := K.stay x t ha ht' id ha'
    refine ⟨by rw [hd, S.data]; exact (K.data x ha ha' id).symm, ?_, ?_, ?_⟩
    · rw [hb, S.borrowed, ha]; exact (K.mutB x ha ha' id).symm
    · rw [hc, ec, e2]
    · rw [ht, S.tree_of ha, ht', e1]
  · intro x t hd' e
    rw [ht] at e
    obtain ⟨ha, e⟩ := S.tree_some e
    exact K.died x t ha hd' e
  · intro t hta'
    rw [hr, S.root]
    have hta : w.heap.treeAlive t = true := by
      cases e : w.heap.treeAlive t with
      | true => rfl
      | false =>
        have := K.freshTree t (by rw [← hnt]; exact I'.wf.tree.bound t hta') e
        rw [hta'] at this; cases this
    obtain ⟨x, hx⟩ := Option.isSome_iff_exists.1 hta
    obtain ⟨e1, e2, e3⟩ := I.wf.tree.root t x hx
    have hxa' : w'.heap.alive x = true := by
      cases e : w'.heap.alive x with
      | true => rfl
      | false => rw [K.died x t e1 e e2] at hta'; cases hta'
    have hm := (K.stay x t e1 e2 id hxa').1
    rw [hx]
    refine (I'.wf.tree.top x t hxa' ?_ hm).symm
    refine I'.wf.toFShape.parent_none hxa' fun p hp => ?_
    have hpa' := I'.wf.alive_parent hp
    have hpa := old p hpa'
    obtain ⟨u, hu, -⟩ := I.wf.tree.live p hpa
    rw [(K.stay p u hpa hu id hpa').2] at hp
    rw [I.wf.parent_of_mem hp] at e3
    cases e3

end Dendron
