import Verif.Proofs.Safe

/-! Link surgery changes only links and frees what has no owner any more; it never stores a dangling
link, also in damaged hierarchies. -/

set_option linter.unusedSimpArgs false
set_option linter.unusedVariables false

set_option autoImplicit false

namespace Dendron
variable {α : Type} {h h' h'' : Heap α} {n p : NodeId} {t : TreeId} {P Q O held : List NodeId}

/-- Only links and child counts differ, up to what has been freed; the nodes of `P` have not been
freed, and no link dangles. -/
structure Relinks (P : List NodeId) (h h' : Heap α) : Prop where
  base : Base h'
  frees : Frees h h'
  keep : ∀ x ∈ P, h.alive x = true → h'.alive x = true

theorem Relinks.refl (B : Base h) : Relinks P h h := ⟨B, .refl _, fun _ _ => id⟩
theorem Relinks.mono (a : Relinks P h h') (s : ∀ x ∈ O, x ∈ P) : Relinks O h h' :=
  ⟨a.base, a.frees, fun x hx => a.keep x (s x hx)⟩
theorem Relinks.trans (a : Relinks P h h') (b : Relinks Q h' h'') (s : ∀ x ∈ O, x ∈ P ∧ x ∈ Q) :
    Relinks O h h'' :=
  ⟨b.base, a.frees.trans b.frees, fun x hx ha => b.keep x (s x hx).2 (a.keep x (s x hx).1 ha)⟩

theorem release_keeps {pins : List NodeId} {x : NodeId} (hx : x ∈ pins) : ∀ {f : Nat} {n : NodeId}
    {h h' : Heap α}, h.release f pins n = .ok h' → h.alive x = true → h'.alive x = true
  | 0, n, h, h', e, ha => by cases e
  | f + 1, n, h, h', e, ha => by
    unfold Heap.release at e
    split at e
    · simp only [Except.ok.injEq] at e; subst e; exact ha
    · rename_i hc
      have hxn : x ≠ n := by
        rintro rfl
        have : pins.contains x = true := by simpa using hx
        rw [this] at hc; simp at hc
      have h1 : (h.kill n).alive x = true := by rw [kill_alive, if_neg hxn]; exact ha
      simp only at e
      have step : ∀ {o : Option NodeId} {g g' : Heap α},
          (match o with | some c => g.release f pins c | none => .ok g) = .ok g' →
          g.alive x = true → g'.alive x = true := by
        intro o g g' eg hg
        cases o with
        | none => simp only [Except.ok.injEq] at eg; subst eg; exact hg
        | some c => exact release_keeps hx eg hg
      split at e
      · cases e
      · rename_i h2 e2
        exact step e (step e2 h1)

theorem Base.dropLocal {x : NodeId} (B : Base h) (e : h.dropLocal held x = .ok h') :
    Relinks held h h' :=
  ⟨(B.release e).1, (B.release e).2, fun _ hy => release_keeps hy e⟩

theorem Base.dropOpt {o : Option NodeId} (B : Base h) (e : h.dropOpt held o = .ok h') :
    Relinks held h h' := by
  cases o with
  | none => simp only [Heap.dropOpt, Except.ok.injEq] at e; subst e; exact .refl B
  | some x => exact B.dropLocal e

/-- A change of links and counts only. -/
theorem Relinks.of_same (B : Base h') (s : SameNonLink h h') : Relinks P h h' :=
  ⟨B, s.frees, fun x _ ha => by rw [s.alive]; exact ha⟩

theorem same_rfl {g : Heap α} (h1 : g.data = h.data) (h2 : g.mutB = h.mutB) (h3 : g.mem = h.mem)
    (h4 : g.root = h.root) (h5 : g.grants = h.grants) (h6 : g.treeRc = h.treeRc)
    (h7 : g.nNode = h.nNode) (h8 : g.nTree = h.nTree) : SameNonLink h g :=
  ⟨h1, h2, h3, h4, h5, h6, h7, h8⟩

theorem Relinks.after {g : Heap α} (R : Relinks P g h') (s : SameNonLink h g) : Relinks P h h' :=
  ⟨R.base, s.frees.trans R.frees, fun x hx ha => R.keep x hx (by rw [s.alive]; exact ha)⟩

theorem Relinks.setNext {m : NodeId} {v : Option NodeId} (R : Relinks P h h') (hm : h'.alive m = true)
    (hv : ∀ x, v = some x → h'.alive x = true) : Relinks P h (h'.setNext m v) :=
  R.trans (Q := P) (.of_same (R.base.setNext hm hv) ⟨rfl, rfl, rfl, rfl, rfl, rfl, rfl, rfl⟩)
    (fun _ h => ⟨h, h⟩)
theorem Relinks.setFirst {m : NodeId} {v : Option NodeId} (R : Relinks P h h') (hm : h'.alive m = true)
    (hv : ∀ x, v = some x → h'.alive x = true) : Relinks P h (h'.setFirst m v) :=
  R.trans (Q := P) (.of_same (R.base.setFirst hm hv) ⟨rfl, rfl, rfl, rfl, rfl, rfl, rfl, rfl⟩)
    (fun _ h => ⟨h, h⟩)
theorem Relinks.setParent {m : NodeId} {v : Option NodeId} (R : Relinks P h h') :
    Relinks P h (h'.setParent m v) :=
  R.trans (Q := P) (.of_same R.base.setParent ⟨rfl, rfl, rfl, rfl, rfl, rfl, rfl, rfl⟩)
    (fun _ h => ⟨h, h⟩)
theorem Relinks.setPrev {m : NodeId} {v : Option NodeId} (R : Relinks P h h') :
    Relinks P h (h'.setPrev m v) :=
  R.trans (Q := P) (.of_same R.base.setPrev ⟨rfl, rfl, rfl, rfl, rfl, rfl, rfl, rfl⟩)
    (fun _ h => ⟨h, h⟩)
theorem Relinks.setNum {m : NodeId} {v : Nat} (R : Relinks P h h') : Relinks P h (h'.setNum m v) :=
  R.trans (Q := P) (.of_same R.base.setNum ⟨rfl, rfl, rfl, rfl, rfl, rfl, rfl, rfl⟩)
    (fun _ h => ⟨h, h⟩)
theorem Relinks.numAdd {m : NodeId} {v : Nat} (R : Relinks P h h') : Relinks P h (h'.numAdd m v) := R.setNum
theorem Relinks.numSub {m : NodeId} {v : Nat} (R : Relinks P h h') (e : h'.numSub m v = .ok h'') :
    Relinks P h h'' := by
  unfold Heap.numSub at e
  split at e
  · cases e
  · simp only [Except.ok.injEq] at e; subst e; exact R.setNum

theorem Base.putNext {m : NodeId} {v : Option NodeId} (B : Base h) (hm : h.alive m = true)
    (hv : ∀ x, v = some x → h.alive x = true) (e : h.putNext held m v = .ok h') : Relinks held h h' :=
  ((B.setNext hm hv).dropOpt e).after ⟨rfl, rfl, rfl, rfl, rfl, rfl, rfl, rfl⟩
theorem Base.putFirst {m : NodeId} {v : Option NodeId} (B : Base h) (hm : h.alive m = true)
    (hv : ∀ x, v = some x → h.alive x = true) (e : h.putFirst held m v = .ok h') : Relinks held h h' :=
  ((B.setFirst hm hv).dropOpt e).after ⟨rfl, rfl, rfl, rfl, rfl, rfl, rfl, rfl⟩

theorem some_alive {x : NodeId} {P : NodeId → Prop} (h1 : P x) : ∀ y, some x = some y → P y := by
  intro y e; cases e; exact h1

theorem Base.connectH {a b : NodeId} (B : Base h) (ha : h.alive a = true) (hb : h.alive b = true)
    (e : h.connect held a b = .ok h') : Relinks held h h' :=
  (B.setPrev.putNext (h := h.setPrev b (some a)) ha (some_alive hb) e).after
    ⟨rfl, rfl, rfl, rfl, rfl, rfl, rfl, rfl⟩

/-- The tree keeps living when its root changes. -/
theorem Base.setRootR {x : NodeId} (B : Base h) (hx : h.alive x = true) (hta : h.treeAlive t = true) :
    Relinks P h (h.setRoot t (some x)) := by
  have htal : ∀ u, (h.setRoot t (some x)).treeAlive u = h.treeAlive u := by
    intro u
    simp only [Heap.treeAlive, Heap.setRoot, upd_apply]
    split
    · rename_i e; rw [e]; exact hta.symm
    · rfl
  refine ⟨⟨B.next, B.first, ?_, B.bound, ?_, ?_⟩,
    ⟨fun _ _ _ _ => Iff.rfl, fun _ _ => rfl, fun u => .inl ⟨htal u, rfl⟩, rfl, rfl, rfl⟩, fun _ _ => id⟩
  · intro u y e
    simp only [Heap.setRoot, upd_apply] at e
    split at e
    · cases e; exact hx
    · exact B.root u y e
  · intro u hu; rw [htal] at hu; exact B.tbound u hu
  · intro y u a b e; rw [htal]; exact B.memb _ _ _ _ e

theorem Base.putRoot {x : NodeId} (B : Base h) (hx : h.alive x = true) (hta : h.treeAlive t = true)
    (e : h.putRoot held t x = .ok h') : Relinks held h h' := by
  have R := B.setRootR (P := held) hx hta
  exact R.trans (R.base.dropOpt e) (fun _ h => ⟨h, h⟩)

/-- Removing a link from the sibling list. -/
theorem Base.newByUnlink {b : Bool} (B : Base h) (hn : h.alive n = true)
    (e : h.newByUnlink held n = .ok (h', b)) : Relinks (n :: held) h h' := by
  have hnx : ∀ x, h.nextLink n = some x → h.alive x = true := fun x e => (B.next _ _ e).2
  simp only [Heap.newByUnlink] at e
  split at e
  · simp only [Except.ok.injEq, Prod.mk.injEq] at e; obtain ⟨rfl, _⟩ := e; exact .refl B
  simp only [bind, Except.bind, pure, Except.pure] at e
  split at e
  · cases e
  rename_i prev hprev
  split at e
  · cases e
  rename_i pc hpc
  obtain ⟨held3, e3⟩ : ∃ l, l = pc :: ((h.parentLink n).toList ++ n :: held) := ⟨_, rfl⟩
  obtain ⟨held2, e2⟩ : ∃ l, l = (h.nextLink n).toList ++ held3 := ⟨_, rfl⟩
  obtain ⟨held1, e1⟩ : ∃ l, l = prev.toList ++ held2 := ⟨_, rfl⟩
  rw [← e3, ← e2, ← e1] at e
  have s3 : ∀ x ∈ n :: held, x ∈ held3 := by intro x hx; rw [e3]; simp_all
  have s2 : ∀ x ∈ held3, x ∈ held2 := by intro x hx; rw [e2]; simp [hx]
  have s1 : ∀ x ∈ held2, x ∈ held1 := by intro x hx; rw [e1]; simp [hx]
  split at e
  · cases e
  rename_i g1 hg1
  have R1 : Relinks held1 h g1 := by
    cases hp : h.parentLink n with
    | none =>
      simp only [hp, Except.ok.injEq] at hg1
      subst hg1; exact .refl B
    | some p =>
      simp only [hp] at hg1
      split at hg1
      · cases hg1
      rename_i fs hfs
      split at hg1
      · cases hg1
      rename_i g hg
      have R : Relinks held1 h g := by
        cases fs with
        | false => simp only [Bool.false_eq_true, if_false, Except.ok.injEq] at hg; subst hg; exact .refl B
        | true => exact B.putFirst (parentLink_alive hp) hnx hg
      by_cases h0 : g.numCh p = 0
      · rw [if_pos h0] at hg1; cases hg1
      · rw [if_neg h0] at hg1; exact R.numSub hg1
  have hn1 := R1.keep n (s1 _ (s2 _ (s3 _ (by simp)))) hn
  have hnx1 : ∀ x, h.nextLink n = some x → g1.alive x = true :=
    fun x hx => R1.keep x (s1 _ (by rw [e2, hx]; simp)) (hnx x hx)
  split at e
  · cases e
  rename_i g2 hg2
  have R2 : Relinks held2 h g2 := by
    cases prev with
    | none =>
      simp only [Except.ok.injEq] at hg2
      subst hg2; exact R1.mono s1
    | some s =>
      simp only at hg2
      split at hg2
      · cases hg2
      rename_i g hg
      have R : Relinks held1 h g := R1.trans (R1.base.putNext
        (R1.keep s (by rw [e1]; simp) (prevLink_alive hprev)) hnx1 hg) (fun _ h => ⟨h, h⟩)
      exact R.trans (R.base.dropLocal hg2) (fun x hx => ⟨s1 x hx, hx⟩)
  split at e
  · cases e
  rename_i g3 hg3
  have R3 : Relinks held3 h g3 := by
    cases hx : h.nextLink n with
    | none =>
      simp only [hx, Except.ok.injEq] at hg3
      subst hg3; exact R2.mono s2
    | some s =>
      simp only [hx] at hg3
      exact R2.setPrev.trans (R2.setPrev.base.dropLocal hg3) (fun x hx => ⟨s2 x hx, hx⟩)
  split at e
  · cases e
  rename_i g4 hg4
  have hn3 := R3.keep n (s3 _ (by simp)) hn
  have R4 : Relinks held3 h g4 := by
    have R := (R3.setParent (m := n) (v := none)).setPrev (m := n) (v := some n)
    exact R.trans (R.base.putNext hn3 (by simp) hg4) (fun x hx => ⟨hx, hx⟩)
  split at e
  · cases e
  rename_i g5 hg5
  have R5 : Relinks ((h.parentLink n).toList ++ n :: held) h g5 :=
    R4.trans (R4.base.dropLocal hg5) (fun x hx => ⟨by rw [e3]; exact List.mem_cons_of_mem _ hx, hx⟩)
  split at e
  · cases e
  rename_i g6 hg6
  simp only [Except.ok.injEq, Prod.mk.injEq] at e
  obtain ⟨rfl, _⟩ := e
  exact R5.trans (R5.base.dropOpt hg6) (fun x hx => ⟨by simp_all, hx⟩)

theorem Base.insertFirst {b : Bool} {r : Except HierarchyError Unit} (B : Base h)
    (hn : h.alive n = true) (hp : h.alive p = true) (e : h.insertFirst held n b p = .ok (h', r)) :
    Relinks (n :: p :: held) h h' := by
  simp only [Heap.insertFirst, bind, Except.bind, pure, Except.pure] at e
  split at e
  · cases e
  split at e
  · simp only [Except.ok.injEq, Prod.mk.injEq] at e; obtain ⟨rfl, _⟩ := e; exact .refl B
  split at e
  · cases e
  rename_i fl hfl
  split at e
  · cases e
  rename_i g1 hg1
  have R1 : Relinks (n :: p :: held) h g1 := by
    cases fl with
    | none => simp only [Except.ok.injEq] at hg1; subst hg1; exact (Relinks.refl B).setPrev
    | some fl =>
      obtain ⟨f, l⟩ := fl
      simp only at hg1
      split at hg1
      · cases hg1
      rename_i g hg
      have R : Relinks (l :: n :: p :: held) h g :=
        (B.setPrev.connectH (h := h.setPrev n (some l)) hn (firstLast_alive B hfl).1 hg).after
          ⟨rfl, rfl, rfl, rfl, rfl, rfl, rfl, rfl⟩
      exact R.trans (R.base.dropLocal hg1) (fun x hx => ⟨List.mem_cons_of_mem _ hx, hx⟩)
  split at e
  · cases e
  rename_i g2 hg2
  simp only [Except.ok.injEq, Prod.mk.injEq] at e
  obtain ⟨rfl, _⟩ := e
  have R := R1.setParent (m := n) (v := some p)
  exact (R.trans (R.base.putFirst (R.keep p (by simp) hp) (some_alive (R.keep n (by simp) hn)) hg2)
    (fun x hx => ⟨hx, hx⟩)).numAdd

theorem Base.insertLast {b : Bool} {r : Except HierarchyError Unit} (B : Base h)
    (hn : h.alive n = true) (hp : h.alive p = true) (e : h.insertLast held n b p = .ok (h', r)) :
    Relinks (n :: p :: held) h h' := by
  simp only [Heap.insertLast, bind, Except.bind, pure, Except.pure] at e
  split at e
  · cases e
  split at e
  · simp only [Except.ok.injEq, Prod.mk.injEq] at e; obtain ⟨rfl, _⟩ := e; exact .refl B
  split at e
  · cases e
  rename_i fl hfl
  split at e
  · cases e
  rename_i g1 hg1
  simp only [Except.ok.injEq, Prod.mk.injEq] at e
  obtain ⟨rfl, _⟩ := e
  refine Relinks.numAdd (Relinks.setParent ?_)
  cases fl with
  | none =>
    exact (B.setPrev.putFirst (h := h.setPrev n (some n)) hp (some_alive hn) hg1).after
      ⟨rfl, rfl, rfl, rfl, rfl, rfl, rfl, rfl⟩
  | some fl =>
    obtain ⟨f, l⟩ := fl
    simp only at hg1
    split at hg1
    · cases hg1
    rename_i g hg
    split at hg1
    · cases hg1
    rename_i g' hg'
    have R : Relinks (l :: f :: n :: p :: held) h g :=
      (B.setPrev.connectH (h := h.setPrev f (some n)) (firstLast_alive B hfl).2 hn hg).after
        ⟨rfl, rfl, rfl, rfl, rfl, rfl, rfl, rfl⟩
    have R' : Relinks (f :: n :: p :: held) h g' :=
      R.trans (R.base.dropLocal hg') (fun x hx => ⟨List.mem_cons_of_mem _ hx, hx⟩)
    exact R'.trans (R'.base.dropLocal hg1) (fun x hx => ⟨List.mem_cons_of_mem _ hx, hx⟩)

theorem Base.insertBetween {a b : NodeId} (B : Base h)
    (hn : h.alive n = true) (ha : h.alive a = true)
    (e : h.insertBetween held n p a b = .ok h') : Relinks (n :: p :: a :: b :: held) h h' := by
  simp only [Heap.insertBetween, bind, Except.bind, pure, Except.pure] at e
  split at e
  · cases e
  split at e
  · cases e
  rename_i g hg
  simp only [Except.ok.injEq] at e
  subst e
  have R : Relinks (n :: p :: a :: b :: held) h ((h.setParent n (some p)).setNext a (some n)) :=
    (Relinks.setParent (.refl B)).setNext ha (some_alive hn)
  exact ((R.trans (R.base.putNext hn (fun x hx => (B.next a x hx).2) hg)
    (fun x hx => ⟨hx, hx⟩)).setPrev).setPrev.numAdd

theorem Base.insert {b : Bool} {r : Except HierarchyError Unit} {dest : InsertAs NodeId} (B : Base h)
    (hn : h.alive n = true) (ha : h.alive dest.anchor = true) (e : h.insert held n b dest = .ok (h', r)) :
    Relinks (dest.anchor :: n :: held) h h' := by
  cases dest with
  | firstChildOf p => exact (B.insertFirst hn ha e).mono (by intro x hx; simp_all [InsertAs.anchor]; grind)
  | lastChildOf p => exact (B.insertLast hn ha e).mono (by intro x hx; simp_all [InsertAs.anchor]; grind)
  | previousSiblingOf a =>
    simp only [Heap.insert] at e
    split at e
    · simp only [Except.ok.injEq, Prod.mk.injEq] at e; obtain ⟨rfl, _⟩ := e; exact .refl B
    rename_i p hp
    simp only [bind, Except.bind, pure, Except.pure] at e
    split at e
    · cases e
    rename_i v hv
    split at e
    · rename_i s
      split at e
      · cases e
      rename_i g hg
      have R := B.insertBetween hn (prevLink_alive hv) hg
      split at e
      · cases e
      rename_i g1 hg1
      have R1 : Relinks (p :: a :: n :: held) h g1 :=
        R.trans (R.base.dropLocal hg1) (by intro x hx; simp_all; grind)
      split at e
      · cases e
      rename_i g2 hg2
      simp only [Except.ok.injEq, Prod.mk.injEq] at e; obtain ⟨rfl, _⟩ := e
      exact R1.trans (R1.base.dropLocal hg2) (by intro x hx; simp_all [InsertAs.anchor])
    · split at e
      · cases e
      rename_i v hv
      obtain ⟨g, r'⟩ := v
      have R := B.insertFirst hn (parentLink_alive hp) hv
      simp only at e
      split at e
      · cases e
      rename_i g2 hg2
      simp only [Except.ok.injEq, Prod.mk.injEq] at e; obtain ⟨rfl, _⟩ := e
      exact R.trans (R.base.dropLocal hg2) (by intro x hx; simp_all [InsertAs.anchor]; grind)
  | nextSiblingOf a =>
    simp only [Heap.insert] at e
    split at e
    · simp only [Except.ok.injEq, Prod.mk.injEq] at e; obtain ⟨rfl, _⟩ := e; exact .refl B
    rename_i p hp
    split at e
    · rename_i s hs
      simp only [bind, Except.bind, pure, Except.pure] at e
      split at e
      · cases e
      rename_i g hg
      have R := B.insertBetween hn ha hg
      split at e
      · cases e
      rename_i g1 hg1
      have R1 : Relinks (p :: a :: n :: held) h g1 :=
        R.trans (R.base.dropLocal hg1) (by intro x hx; simp_all [InsertAs.anchor]; grind)
      split at e
      · cases e
      rename_i g2 hg2
      simp only [Except.ok.injEq, Prod.mk.injEq] at e; obtain ⟨rfl, _⟩ := e
      exact R1.trans (R1.base.dropLocal hg2) (by intro x hx; simp_all [InsertAs.anchor])
    · simp only [bind, Except.bind, pure, Except.pure] at e
      split at e
      · cases e
      rename_i v hv
      obtain ⟨g, r'⟩ := v
      have R := B.insertLast hn (parentLink_alive hp) hv
      simp only at e
      split at e
      · cases e
      rename_i g2 hg2
      simp only [Except.ok.injEq, Prod.mk.injEq] at e; obtain ⟨rfl, _⟩ := e
      exact R.trans (R.base.dropLocal hg2) (by intro x hx; simp_all [InsertAs.anchor]; grind)

theorem Base.moveSame {r : Except HierarchyError Unit} {dest : InsertAs NodeId} (B : Base h)
    (hn : h.alive n = true) (ha : h.alive dest.anchor = true) (e : h.moveSame held n dest = .ok (h', r)) :
    Relinks (dest.anchor :: n :: held) h h' := by
  unfold Heap.moveSame at e
  split at e
  · simp only [Except.ok.injEq, Prod.mk.injEq] at e; obtain ⟨rfl, _⟩ := e; exact .refl B
  simp only [bind, Except.bind] at e
  split at e
  · cases e
  rename_i v hv
  obtain ⟨g, b⟩ := v
  have R1 := B.newByUnlink hn hv
  exact R1.trans (R1.base.insert (R1.keep n (by simp) hn) (R1.keep _ (by simp) ha) e)
    (by intro x hx; simp_all; grind)

theorem Base.reparentLoop : ∀ {f : Nat} {c : Option NodeId} {h h' : Heap α}, Base h →
    Heap.reparentLoop held f c p h = .ok h' → Relinks (p :: held) h h'
  | f, none, h, h', B, e => by
    cases f <;> simp only [Heap.reparentLoop, Except.ok.injEq] at e <;> subst e <;> exact .refl B
  | 0, some _, h, h', B, e => by cases e
  | f + 1, some c, h, h', B, e => by
    simp only [Heap.reparentLoop, bind, Except.bind] at e
    split at e
    · cases e
    rename_i g hg
    have R1 : Relinks ((h.nextLink c).toList ++ p :: held) h g :=
      (B.setParent.dropLocal (h := h.setParent c (some p)) hg).after
        ⟨rfl, rfl, rfl, rfl, rfl, rfl, rfl, rfl⟩
    exact R1.trans (Base.reparentLoop R1.base e) (fun x hx => ⟨List.mem_append_right _ hx, hx⟩)

theorem expectOk_ok {β : Type} {r : Except Fault (Heap α × Except HierarchyError β)} {m : String}
    {v : Heap α × β} (e : Heap.expectOk r m = .ok v) : r = .ok (v.1, .ok v.2) := by
  unfold Heap.expectOk at e
  split at e
  · cases e
  · simp only [Except.ok.injEq] at e; subst e; rfl
  · cases e

theorem Base.interruptChild {r : Except HierarchyError Unit} {new : NodeId} (B : Base h)
    (hn : h.alive n = true) (hw : h.alive new = true) (e : h.interruptChild n new = .ok (h', r)) :
    Relinks [n, new] h h' := by
  simp only [Heap.interruptChild, bind, Except.bind, pure, Except.pure] at e
  split at e
  · cases e
  rename_i g hg
  have R : Relinks ((h.firstChildLink n).toList ++ [n, new]) h
      ((h.setFirst n (some new)).setParent new (some n)) :=
    ((Relinks.refl B).setFirst hn (some_alive hw)).setParent
  have R1 := R.trans (R.base.putFirst hw (fun x hx => (B.first _ _ hx).2) hg) (fun x hx => ⟨hx, hx⟩)
  split at e
  · cases e
  rename_i g1 hg1
  simp only [Except.ok.injEq, Prod.mk.injEq] at e; obtain ⟨rfl, _⟩ := e
  have R2 := R1.base.reparentLoop hg1
  have R3 : Relinks [n, new] h g1 := R1.trans R2 (by intro x hx; simp_all; grind)
  exact R3.setNum.setNum

theorem Base.replaceRelinkSome {f : NodeId} {prev next : Option NodeId} (B : Base h)
    (hp : h.alive p = true) (hf : h.alive f = true)
    (h1 : ∀ x, prev = some x → h.alive x = true) (h2 : ∀ x, next = some x → h.alive x = true)
    (e : h.replaceRelinkSome held p f prev next = .ok h') : Relinks (p :: held) h h' := by
  simp only [Heap.replaceRelinkSome, bind, Except.bind, pure, Except.pure] at e
  split at e
  · cases e
  rename_i last hlast
  have hla := prevCycLink_alive hlast
  split at e
  · cases e
  rename_i g hg
  suffices R : Relinks (last :: p :: held) h g from
    R.trans (R.base.dropLocal e) (fun x hx => ⟨List.mem_cons_of_mem _ hx, hx⟩)
  split at hg
  · rename_i a b
    split at hg
    · cases hg
    rename_i g1 hg1
    have R1 := B.connectH (h1 a rfl) hf hg1
    split at hg
    · cases hg
    rename_i g2 hg2
    have R2 : Relinks (a :: last :: p :: held) h g2 :=
      R1.trans (R1.base.connectH (R1.keep last (by simp) hla) (R1.keep b (by simp) (h2 b rfl)) hg2)
        (by intro x hx; simp_all; grind)
    exact R2.trans (R2.base.dropLocal hg) (by intro x hx; simp_all)
  · rename_i a
    split at hg
    · cases hg
    rename_i g1 hg1
    have R1 := B.connectH (h1 a rfl) hf hg1
    split at hg
    · cases hg
    rename_i f' hf'
    split at hg
    · cases hg
    rename_i g2 hg2
    have R2 := R1.setPrev.trans (R1.setPrev.base.dropLocal hg2) (fun x hx => ⟨hx, hx⟩)
    exact R2.trans (R2.base.dropLocal hg) (by intro x hx; simp_all)
  · rename_i b
    split at hg
    · cases hg
    rename_i g1 hg1
    have R1 := B.connectH hla (h2 b rfl) hg1
    split at hg
    · cases hg
    rename_i w hw
    have R2 := R1.setPrev (m := f) (v := w)
    exact R2.trans (R2.base.putFirst (R2.keep p (by simp) hp) (some_alive (R2.keep f (by simp) hf)) hg)
      (by intro x hx; simp_all)
  · exact B.putFirst hp (some_alive hf) hg

theorem Base.replaceRelinkNone {prev next : Option NodeId} (B : Base h)
    (hp : h.alive p = true)
    (h1 : ∀ x, prev = some x → h.alive x = true) (h2 : ∀ x, next = some x → h.alive x = true)
    (e : h.replaceRelinkNone held p prev next = .ok h') : Relinks (p :: held) h h' := by
  simp only [Heap.replaceRelinkNone, bind, Except.bind] at e
  split at e
  · rename_i a b
    split at e
    · cases e
    rename_i g hg
    have R := B.connectH (h1 a rfl) (h2 b rfl) hg
    exact R.trans (R.base.dropLocal e) (by intro x hx; simp_all)
  · rename_i a
    split at e
    · cases e
    rename_i g hg
    have R := B.putNext (h1 a rfl) (by simp) hg
    exact R.trans (R.base.dropLocal e) (by intro x hx; simp_all)
  · rename_i b
    split at e
    · cases e
    exact (B.setPrev.putFirst (h := h.setPrev b _) hp (some_alive (h2 b rfl)) e).after
      ⟨rfl, rfl, rfl, rfl, rfl, rfl, rfl, rfl⟩
  · exact B.putFirst hp (by simp) e

theorem Base.replaceNonRoot {first : Option NodeId} (B : Base h)
    (hp : h.alive p = true) (h1 : ∀ x, first = some x → h.alive x = true)
    (e : h.replaceNonRoot n p first = .ok h') : Relinks [n] h h' := by
  simp only [Heap.replaceNonRoot, bind, Except.bind, pure, Except.pure] at e
  split at e
  · cases e
  rename_i g hg
  have R1 := B.reparentLoop hg
  split at e
  · cases e
  rename_i prev hprev
  split at e
  · cases e
  rename_i g2 hg2
  have R2 : Relinks [p, n] g g2 := by
    have hpv : ∀ x, prev = some x → g.alive x = true := by
      intro x hx; subst hx; exact prevLink_alive hprev
    have hnx : ∀ x, g.nextLink n = some x → g.alive x = true :=
      fun x hx => (R1.base.next _ _ hx).2
    have hpa := R1.keep p (by simp) hp
    cases first with
    | none => exact R1.base.replaceRelinkNone hpa hpv hnx hg2
    | some f =>
      exact R1.base.replaceRelinkSome hpa (R1.keep f (by simp) (h1 f rfl)) hpv hnx hg2
  have R3 : Relinks [n] h g2 := R1.trans R2 (by intro x hx; simp_all)
  split at e
  · cases e
  split at e
  · cases e
  rename_i g3 hg3
  have R4 := (R3.numSub hg3).numAdd (m := p) (v := g3.numCh n)
  exact R4.trans (R4.base.dropLocal e) (fun x hx => ⟨hx, hx⟩)

end Dendron
