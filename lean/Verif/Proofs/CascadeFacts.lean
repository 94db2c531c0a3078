import Verif.Proofs.CascadeStep

/-! What has happened at the end of a cascade of drops. -/

set_option linter.unusedSimpArgs false
set_option linter.unusedVariables false
set_option autoImplicit false

namespace Dendron
open RTree
variable {α : Type} {b b1 b' b'' r r' r'' : World α} {x y n m : NodeId} {t u : TreeId}
  {own : NodeId → List Asset} {a a' : Asset} {P P' rest : List Asset} {kd : Kind}

theorem Asset.pos_of (hs : b.StepW a.op b1 .unit) : 0 < b.count a := by
  have := hs.allowed
  cases a with
  | node k n => exact this
  | tree t => exact this
  | token g t => cases g <;> simpa [World.count, World.Allowed, Asset.op] using this

/-- A drop step changes the counts by one. -/
theorem Asset.count_step (hs : b.StepW a.op b1 .unit) (a' : Asset) :
    b.count a' = b1.count a' + (if a = a' then 1 else 0) := by
  have hp := Asset.pos_of hs
  have hx := hs.run
  cases a with
  | node k n =>
    simp only [Asset.op, World.exec, bind, Except.bind, pure, Except.pure] at hx
    split at hx
    · cases hx
    cases hx
    cases a' with
    | node k' m =>
      simp only [World.count, World.take] at hp ⊢
      by_cases e : k' = k ∧ m = n
      · obtain ⟨rfl, rfl⟩ := e; simp; omega
      · rw [if_neg e, if_neg]
        · rfl
        · intro h; injection h with h1 h2; exact e ⟨h1.symm, h2.symm⟩
    | tree u => rfl
    | token g u => rfl
  | tree t =>
    simp only [Asset.op, World.exec, bind, Except.bind, pure, Except.pure] at hx
    split at hx
    · cases hx
    cases hx
    cases a' with
    | node k n => rfl
    | tree u =>
      simp only [World.count, upd_apply] at hp ⊢
      by_cases e : u = t
      · subst e; simp; omega
      · have e' : t ≠ u := fun h => e h.symm
        simp [e, e']
    | token g u => rfl
  | token g t =>
    have key : ∀ h, b.count a' = (({ b with heap := h } : World α).takeTok g t).count a' +
        (if Asset.token g t = a' then 1 else 0) := by
      intro h
      cases a' with
      | node k n => cases g <;> rfl
      | tree u => cases g <;> rfl
      | token g' u =>
        have e' : ∀ {p q : TreeId}, p ≠ q → q ≠ p := fun h => fun h1 => h h1.symm
        cases g <;> cases g' <;> simp only [World.count, World.takeTok, upd_apply] at hp ⊢
        · by_cases e : u = t
          · subst e; simp at hp ⊢; omega
          · simp [e, e' e]
        · simp
        · simp
        · by_cases e : u = t
          · subst e; simp at hp ⊢; omega
          · simp [e, e' e]
    simp only [Asset.op, World.exec, bind, Except.bind, pure, Except.pure] at hx
    split at hx
    · split at hx
      · cases hx
      · cases hx; exact key _
    · cases hx; exact key b.heap

theorem flatMap_none (l : List NodeId) : l.flatMap (fun _ => ([] : List Asset)) = [] := by
  induction l with
  | nil => rfl
  | cons x l ih => simp [List.flatMap_cons, ih]

/-- Nothing else happens to the dead. -/
theorem Asset.fade (hb : ReachW b) (hs : b.StepW a.op b1 .unit) : Fade b.heap b1.heap := by
  have hS : OwnsAll (fun _ => []) b (a :: []) := by
    intro L hd hl a'
    have := Asset.count_step hs a'
    simp only [flatMap_none, List.append_nil, List.count_cons, List.count_nil, beq_iff_eq]
    omega
  obtain ⟨H', b', -, R⟩ := assets_ok (fun _ => []) b.heap.nNode _ _ b.heap b a [] Nest.start hb hs.room (.init _)
    ⟨fun _ h => (by cases h), fun _ h => (by cases h), fun _ h => (by cases h), fun _ h => h.elim⟩ hS
    (Few.of_reach hb)
  have hd := R.drops
  have hf := R.fade
  generalize hP : [a] = P at hd
  cases hd with
  | nil => cases hP
  | @cons a1 as l _ w1 _ s _ _ D =>
    cases hP
    rw [flatMap_none, List.append_nil] at D
    generalize hQ : ([] : List Asset) = Q at D
    cases D with
    | cons => cases hQ
    | nil =>
    have := s.run
    rw [hs.run] at this
    cases this
    exact hf

theorem Drops.fade (D : Drops own P b b') : ReachW b → Fade b.heap b'.heap := by
  induction D with
  | nil => exact fun _ => .refl _
  | cons s hl hm _ ih => exact fun hb => (Asset.fade hb s).trans (ih (.step hb s))

/-- Everything dropped is counted. -/
theorem Drops.account (D : Drops own P b b') : ReachW b →
    ∃ l : List NodeId, l.Nodup ∧ (∀ x, x ∈ l ↔ b.heap.alive x = true ∧ b'.heap.alive x = false) ∧
      ∀ a, b.count a = b'.count a + (P ++ l.flatMap own).count a := by
  induction D with
  | nil w => exact fun _ => ⟨[], by simp, by simp, by simp⟩
  | @cons a as l w w1 w' s hl hm D ih =>
    intro hb
    have hb1 : ReachW w1 := .step hb s
    obtain ⟨l', h1, h2, h3⟩ := ih hb1
    have F1 := Asset.fade hb s
    have F2 := D.fade hb1
    refine ⟨l ++ l', ?_, ?_, ?_⟩
    · rw [List.nodup_append]
      refine ⟨hl, h1, ?_⟩
      rintro x hx y hy rfl
      have e1 := ((hm x).1 hx).2
      rw [((h2 x).1 hy).1] at e1; cases e1
    · intro x
      rw [List.mem_append, hm, h2]
      constructor
      · rintro (⟨e1, e2⟩ | ⟨e1, e2⟩)
        · exact ⟨e1, F2.dead e2⟩
        · exact ⟨F1.alive e1, e2⟩
      · rintro ⟨e1, e2⟩
        cases e : w1.heap.alive x with
        | true => exact .inr ⟨rfl, e2⟩
        | false => exact .inl ⟨e1, rfl⟩
    · intro a'
      rw [Asset.count_step s a', h3 a', List.flatMap_append]
      simp only [List.cons_append, List.count_cons, List.count_append, beq_iff_eq]
      omega

theorem Drops.stored (D : Drops own P b b') : ReachW b → OwnsAll own b (P ++ rest) → OwnsAll own b' rest := by
  induction D with
  | nil => exact fun _ h => by simpa using h
  | @cons a as l w w1 w' s hl hm D ih =>
    intro hb hS
    refine ih (.step hb s) ?_
    rw [List.append_assoc]
    exact OwnsAll.next hS (fun a' => Nat.le_of_eq (Asset.count_step s a')) hl (fun x hx => (hm x).1 hx)
      (fun x hx => (Asset.fade hb s).alive hx)

/-! ### Which trees survive -/

theorem subset_perm {β : Type} [DecidableEq β] : ∀ {L l : List β}, L.Nodup → (∀ x ∈ L, x ∈ l) → ∃ l', l.Perm (L ++ l')
  | [], l, _, _ => ⟨l, .refl _⟩
  | x :: L, l, hd, hs => by
    rw [List.nodup_cons] at hd
    obtain ⟨l', hp⟩ := subset_perm (L := L) (l := l.erase x) hd.2 (fun y hy => by
      have : y ≠ x := fun h => hd.1 (h ▸ hy)
      exact (List.mem_erase_of_ne this).2 (hs y (List.mem_cons_of_mem _ hy)))
    exact ⟨l', (List.perm_cons_erase (hs x List.mem_cons_self)).trans (hp.cons x)⟩

/-- A drop step leaves the members of the trees alone, and destroys whole trees. -/
theorem Asset.members (hb : ReachW b) (hs : b.StepW a.op b1 .unit) :
    (∀ x, b1.heap.alive x = true → b1.heap.memTree x = b.heap.memTree x) ∧
      ∀ x t, b.heap.alive x = true → b1.heap.alive x = false → b.heap.memTree x = some t →
        b1.heap.treeAlive t = false := by
  obtain ⟨v, ch, v', ch', W, W', K⟩ := hb.step_wide hs
  have hE : ∀ t, ¬ Edits b.heap a.op t := by intro t; cases a <;> exact id
  refine ⟨?_, ?_⟩
  · intro x hx
    have hx0 := (Asset.fade hb hs).alive hx
    obtain ⟨t, ht, -⟩ := W.fwd.tree.live x hx0
    rw [ht]
    exact (K.stay x t hx0 ht (hE t) hx).1
  · intro x t h1 h2 h3; exact K.died x t h1 h2 h3

theorem Drops.members (D : Drops own P b b') : ReachW b →
    ∀ x, b'.heap.alive x = true → b'.heap.memTree x = b.heap.memTree x := by
  induction D with
  | nil => exact fun _ _ _ => rfl
  | cons s hl hm D ih =>
    intro hb x hx
    have hb1 := ReachW.step hb s
    exact (ih hb1 x hx).trans ((Asset.members hb s).1 x ((D.fade hb1).alive hx))

/-- A handle to a node of `t`, or a `Tree` of `t`. -/
def World.Ties (w : World α) : Asset → TreeId → Prop
  | .node _ n, t => w.heap.memTree n = some t
  | .tree u, t => u = t
  | .token _ _, _ => False

theorem World.Keeping.ties (hb : ReachW b) (hk : b.Keeping a t) (hc : 0 < b.count a) : b.Ties a t := by
  obtain ⟨v, ch, W⟩ := hb.wide
  cases a with
  | node k n => exact (W.nodeTree_held (k := k) hc).1 hk
  | tree u => exact hk
  | token g u => exact hk

/-- Something of which the program has at least one keeps its tree alive. -/
theorem World.Ties.alive (hb : ReachW b) (ha : b.Ties a t) (hc : 0 < b.count a) : b.heap.treeAlive t = true := by
  obtain ⟨v, ch, W⟩ := hb.wide
  cases a with
  | node k n => exact W.fwd.tree_alive (W.held_alive hc) ha
  | tree u => obtain rfl : u = t := ha; exact W.treesAlive _ hc
  | token g u => exact ha.elim

theorem World.Ties.exists (hb : ReachW b) (ht : b.heap.treeAlive t = true) : ∃ a, 0 < b.count a ∧ b.Ties a t := by
  obtain ⟨v, ch, W⟩ := hb.wide
  rcases W.treeHeld_iff.2 ht with h | ⟨k, n, h1, h2⟩
  · exact ⟨.tree t, h, rfl⟩
  · exact ⟨.node k n, h1, (W.nodeTree_held h1).1 h2⟩

theorem World.Ties.step (hb : ReachW b) (hs : b.StepW a'.op b1 .unit) (ha : b.Ties a t) (hc : 0 < b1.count a) :
    b1.Ties a t := by
  cases a with
  | node k n =>
    obtain ⟨v, ch, W⟩ := (ReachW.step hb hs).wide
    show b1.heap.memTree n = some t
    rw [(Asset.members hb hs).1 n (W.held_alive hc)]; exact ha
  | tree u => exact ha
  | token g u => exact ha

/-- Trees that are kept by each other are never destroyed. -/
theorem Drops.cycle {C : TreeId → Prop} (D : Drops own P b b') : ReachW b → OwnsAll own b P →
    (∀ t, C t → ∃ x u a, b.heap.alive x = true ∧ b.heap.memTree x = some u ∧ C u ∧ a ∈ own x ∧ b.Ties a t) →
    ∀ t, C t → b'.heap.treeAlive t = true := by
  induction D with
  | nil w =>
    intro hb hS hC t ht
    obtain ⟨x, u, a, h1, h2, h3, h4, h5⟩ := hC t ht
    refine h5.alive hb ?_
    have := hS [x] (by simp) (by simpa using h1) a
    have h6 : 0 < (own x).count a := List.count_pos_iff.2 h4
    simp at this
    omega
  | @cons a0 as l w w1 w' s hl hm D ih =>
    intro hb hS hC
    have hb1 := ReachW.step hb s
    have hS1 : OwnsAll own w1 (l.flatMap own ++ as) :=
      OwnsAll.next hS (fun a' => Nat.le_of_eq (Asset.count_step s a')) hl (fun x hx => (hm x).1 hx)
        (fun x hx => (Asset.fade hb s).alive hx)
    have key : ∀ x a, w.heap.alive x = true → a ∈ own x → 0 < w1.count a := by
      intro x a h1 h4
      have h6 : 0 < (own x).count a := List.count_pos_iff.2 h4
      cases e : w1.heap.alive x with
      | true =>
        have := hS1 [x] (by simp) (by simpa using e) a
        rw [List.count_append, List.flatMap_cons, List.flatMap_nil, List.append_nil] at this
        omega
      | false =>
        have hx : x ∈ l := (hm x).2 ⟨h1, e⟩
        have := hS1 [] (by simp) (by simp) a
        rw [List.flatMap_nil, List.append_nil, List.count_append] at this
        have h7 : 0 < (l.flatMap own).count a := List.count_pos_iff.2 (List.mem_flatMap.2 ⟨x, hx, h4⟩)
        omega
    have hC1 : ∀ t, C t → w1.heap.treeAlive t = true := by
      intro t ht
      obtain ⟨x, u, a, h1, h2, h3, h4, h5⟩ := hC t ht
      exact (h5.step hb s (key x a h1 h4)).alive hb1 (key x a h1 h4)
    refine ih hb1 hS1 fun t ht => ?_
    obtain ⟨x, u, a, h1, h2, h3, h4, h5⟩ := hC t ht
    have hx : w1.heap.alive x = true := by
      cases e : w1.heap.alive x with
      | true => rfl
      | false =>
        have := (Asset.members hb s).2 x u h1 e h2
        rw [hC1 u h3] at this; cases this
    exact ⟨x, u, a, hx, ((Asset.members hb s).1 x hx).trans h2, h3, h4, h5.step hb s (key x a h1 h4)⟩

/-- What is destroyed does not depend on the order. -/
theorem Drops.mono {w w' : World α} {Q : List Asset} (D : Drops own Q w w') : ReachW w → ReachW b'' →
    (∀ x, w.heap.alive x = true → b''.heap.alive x = true → b''.heap.memTree x = w.heap.memTree x) →
    (∀ x, w.heap.alive x = false → b''.heap.alive x = false) →
    (∀ L : List NodeId, L.Nodup → (∀ x ∈ L, w.heap.alive x = true ∧ b''.heap.alive x = false) →
      ∀ a, b''.count a + (Q ++ L.flatMap own).count a ≤ w.count a) →
    ∀ x, w'.heap.alive x = false → b''.heap.alive x = false := by
  induction D with
  | nil w => exact fun _ _ _ h _ => h
  | @cons a0 as l w w1 w' s hl hm D ih =>
    intro hw hb'' hmt hdead hcnt
    have hw1 := ReachW.step hw s
    have F := Asset.fade hw s
    have M := Asset.members hw s
    have hd1 : ∀ x, w1.heap.alive x = false → b''.heap.alive x = false := by
      intro x hx
      cases e : w.heap.alive x with
      | false => exact hdead x e
      | true =>
        cases e2 : b''.heap.alive x with
        | false => rfl
        | true =>
          exfalso
          obtain ⟨v, ch, W⟩ := hb''.wide
          obtain ⟨t, ht, hta⟩ := W.fwd.tree.live x e2
          have h1 := M.2 x t e hx (by rw [← hmt x e e2]; exact ht)
          obtain ⟨a, h2, h3⟩ := World.Ties.exists hb'' hta
          have h4 := hcnt [] (by simp) (by simp) a
          have h5 := Asset.count_step s a
          have h6 : 0 < w1.count a := by
            simp only [List.flatMap_nil, List.append_nil, List.count_cons, beq_iff_eq] at h4
            omega
          have h7 : w1.Ties a t := by
            cases a with
            | node k n =>
              obtain ⟨v1, ch1, W1⟩ := hw1.wide
              have n1 := W1.held_alive h6
              have n2 := W.held_alive h2
              show w1.heap.memTree n = some t
              rw [M.1 n n1, ← hmt n (F.alive n1) n2]; exact h3
            | tree u => exact h3
            | token g u => exact h3
          rw [h7.alive hw1 h6] at h1; cases h1
    refine ih hw1 hb'' (fun x h1 h2 => ?_) hd1 (fun L hL hLm a => ?_)
    · rw [M.1 x h1]; exact hmt x (F.alive h1) h2
    · have h4 := hcnt (l ++ L) (by
        rw [List.nodup_append]
        refine ⟨hl, hL, ?_⟩
        rintro x hx y hy rfl
        have e1 := ((hm x).1 hx).2
        rw [(hLm x hy).1] at e1; cases e1) (by
        intro x hx
        rcases List.mem_append.1 hx with hx | hx
        · exact ⟨((hm x).1 hx).1, hd1 x ((hm x).1 hx).2⟩
        · exact ⟨F.alive (hLm x hx).1, (hLm x hx).2⟩) a
      have h5 := Asset.count_step s a
      simp only [List.flatMap_append, List.cons_append, List.count_cons, List.count_append, beq_iff_eq] at h4 ⊢
      omega

theorem flatMap_each {own' : NodeId → List Asset} (ho : ∀ x, (own x).Perm (own' x)) :
    ∀ l : List NodeId, (l.flatMap own).Perm (l.flatMap own')
  | [] => .refl _
  | x :: l => by
    rw [List.flatMap_cons, List.flatMap_cons]
    exact (ho x).append (flatMap_each ho l)

theorem Drops.le {own' : NodeId → List Asset} (D : Drops own P b b') (D' : Drops own' P' b b'') (hP : P.Perm P')
    (ho : ∀ x, (own x).Perm (own' x)) (hb : ReachW b) (hx : b'.heap.alive x = false) :
    b''.heap.alive x = false := by
  obtain ⟨l, h1, h2, h3⟩ := D'.account hb
  refine D.mono hb (D'.reach hb) (fun x _ h => D'.members hb x h) (fun x h => (D'.fade hb).dead h) ?_ x hx
  intro L hL hLm a
  rw [h3 a]
  have : (L.flatMap own).count a ≤ (l.flatMap own').count a := by
    obtain ⟨l', hp⟩ := subset_perm hL (fun x hx => (h2 x).2 (hLm x hx))
    rw [(List.Perm.flatMap_right own' hp).count_eq, List.flatMap_append, List.count_append,
      (flatMap_each ho L).count_eq]
    omega
  have := hP.count_eq a
  simp only [List.count_append]
  omega

theorem Drops.unique {own' : NodeId → List Asset} (D : Drops own P b b') (D' : Drops own' P' b b'') (hP : P.Perm P')
    (ho : ∀ x, (own x).Perm (own' x)) (hb : ReachW b) :
    (∀ x, b'.heap.alive x = b''.heap.alive x) ∧ (∀ t, b'.heap.treeAlive t = b''.heap.treeAlive t) ∧
      ∀ a, b'.count a = b''.count a := by
  have h1 : ∀ x, b'.heap.alive x = b''.heap.alive x := by
    intro x
    cases e : b'.heap.alive x with
    | false => rw [D.le D' hP ho hb e]
    | true =>
      cases e' : b''.heap.alive x with
      | true => rfl
      | false => rw [D'.le D hP.symm (fun x => (ho x).symm) hb e'] at e; cases e
  have h2 : ∀ a, b'.count a = b''.count a := by
    intro a
    obtain ⟨l, i1, i2, i3⟩ := D.account hb
    obtain ⟨l', j1, j2, j3⟩ := D'.account hb
    have hp : l.Perm l' := by
      rw [List.perm_ext_iff_of_nodup i1 j1]
      intro x; rw [i2, j2, h1]
    have h4 := i3 a
    have h5 := j3 a
    have h6 := (List.Perm.flatMap_right own hp).count_eq a
    have h7 := (flatMap_each ho l').count_eq a
    have h8 := hP.count_eq a
    simp only [List.count_append] at h4 h5
    omega
  have key : ∀ {c c' : World α}, ReachW c → ReachW c' → (∀ x, c.heap.alive x = c'.heap.alive x) →
      (∀ a, c.count a = c'.count a) → (∀ x, c.heap.alive x = true → c.heap.memTree x = c'.heap.memTree x) →
      ∀ t, c.heap.treeAlive t = true → c'.heap.treeAlive t = true := by
    intro c c' hc hc' e1 e2 e3 t ht
    obtain ⟨a, ha, hat⟩ := World.Ties.exists hc ht
    refine World.Ties.alive (a := a) hc' ?_ (by rw [← e2]; exact ha)
    obtain ⟨v, ch, W⟩ := hc.wide
    cases a with
    | node k n =>
      show c'.heap.memTree n = some t
      rw [← e3 n (W.held_alive ha)]; exact hat
    | tree u => exact hat
    | token g u => exact hat
  have r1 := D.reach hb
  have r2 := D'.reach hb
  have m : ∀ x, b'.heap.alive x = true → b'.heap.memTree x = b''.heap.memTree x := by
    intro x hx
    rw [D.members hb x hx, D'.members hb x (by rw [← h1]; exact hx)]
  refine ⟨h1, fun t => ?_, h2⟩
  cases e : b'.heap.treeAlive t with
  | true => exact (key r1 r2 h1 h2 m t e).symm
  | false =>
    cases e' : b''.heap.treeAlive t with
    | false => rfl
    | true =>
      rw [key r2 r1 (fun x => (h1 x).symm) (fun a => (h2 a).symm)
        (fun x hx => (m x (by rw [h1]; exact hx)).symm) t e'] at e
      cases e

end Dendron
