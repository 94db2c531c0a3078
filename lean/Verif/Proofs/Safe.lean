import Verif.Proofs.LinkOps
import Verif.Proofs.Own

/-! Memory safety of all code paths, also in damaged hierarchies: what is freed, and that links never
dangle. -/

set_option linter.unusedSimpArgs false
set_option linter.unusedVariables false

set_option autoImplicit false

namespace Dendron
variable {α : Type} {h h' h'' : Heap α} {n p : NodeId} {t : TreeId}

/-- Strong links never dangle, ids in use are bounded, strong memberships are of living nodes in living
trees. -/
structure Base (h : Heap α) : Prop where
  next : ∀ m x, h.next m = some x → h.alive m = true ∧ h.alive x = true
  first : ∀ m x, h.firstChild m = some x → h.alive m = true ∧ h.alive x = true
  root : ∀ t x, h.root t = some x → h.alive x = true
  bound : ∀ n, h.alive n = true → n < h.nNode
  tbound : ∀ t, h.treeAlive t = true → t < h.nTree
  memb : ∀ n t rc l, h.mem n = .strong t rc l → h.alive n = true ∧ h.treeAlive t = true

/-- From `h` to `h'` some nodes without handles and some trees without owners have been freed. -/
structure Frees (h h' : Heap α) : Prop where
  mem : ∀ n t rc l, h.mem n = .strong t rc l ↔ h'.mem n = .strong t rc l
  data : ∀ n, h'.alive n = true → h'.data n = h.data n
  tree : ∀ t, (h'.treeAlive t = h.treeAlive t ∧ h'.grants t = h.grants t) ∨
    (h'.treeAlive t = false ∧ h.treeRc t = 0 ∧ ∀ n rc l, h.mem n ≠ .strong t rc l)
  treeRc : h'.treeRc = h.treeRc
  nNode : h'.nNode = h.nNode
  nTree : h'.nTree = h.nTree

theorem Frees.refl (h : Heap α) : Frees h h :=
  ⟨fun _ _ _ _ => Iff.rfl, fun _ _ => rfl, fun _ => .inl ⟨rfl, rfl⟩, rfl, rfl, rfl⟩

theorem Frees.alive (F : Frees h h') (ha : h'.alive n = true) : h.alive n = true := by
  have := F.data n ha
  unfold Heap.alive at *
  rw [← this]; exact ha

theorem Frees.trans (F : Frees h h') (G : Frees h' h'') : Frees h h'' where
  mem n t rc l := (F.mem n t rc l).trans (G.mem n t rc l)
  data n ha := (G.data n ha).trans (F.data n (G.alive ha))
  tree t := by
    rcases G.tree t with ⟨a, b⟩ | ⟨a, b, c⟩
    · rcases F.tree t with ⟨a', b'⟩ | ⟨a', b'⟩
      · exact .inl ⟨a.trans a', b.trans b'⟩
      · exact .inr ⟨a.trans a', b'⟩
    · exact .inr ⟨a, by rw [← F.treeRc]; exact b, fun n rc l e => c n rc l ((F.mem _ _ _ _).1 e)⟩
  treeRc := G.treeRc.trans F.treeRc
  nNode := G.nNode.trans F.nNode
  nTree := G.nTree.trans F.nTree

theorem SameNonLink.frees (s : SameNonLink h h') : Frees h h' where
  mem _ _ _ _ := by rw [s.mem]
  data _ _ := by rw [s.data]
  tree t := .inl ⟨by simp [Heap.treeAlive, s.root], by rw [s.grants]⟩
  treeRc := s.treeRc
  nNode := s.nNode
  nTree := s.nTree

theorem kill_alive {x : NodeId} : (h.kill n).alive x = if x = n then false else h.alive x := by
  simp only [Heap.alive, Heap.kill, upd_apply]; split <;> rfl

/-- Deallocation of a node nothing refers to. -/
theorem Base.kill (B : Base h) (hr : h.referenced n = false) : Base (h.kill n) ∧ Frees h (h.kill n) := by
  have hr' : ¬ h.referenced n = true := by rw [hr]; simp
  rw [referenced_iff] at hr'
  have hm : ∀ t rc l, h.mem n ≠ .strong t rc l := fun t rc l e => hr' (.inl ⟨t, rc, l, e⟩)
  have hl : ∀ m, h.firstChild m ≠ some n ∧ h.next m ≠ some n := by
    intro m
    constructor <;> intro e
    · exact hr' (.inr (.inr ⟨m, B.bound m (B.first _ _ e).1, (B.first _ _ e).1, .inl e⟩))
    · exact hr' (.inr (.inr ⟨m, B.bound m (B.next _ _ e).1, (B.next _ _ e).1, .inr e⟩))
  have hrt : ∀ t, h.root t ≠ some n := fun t e =>
    hr' (.inr (.inl ⟨t, B.tbound t (by simp [Heap.treeAlive, e]), e⟩))
  have hmem : ∀ x t rc l, (h.kill n).mem x = .strong t rc l ↔ h.mem x = .strong t rc l := by
    intro x t rc l
    simp only [Heap.kill, upd_apply]
    split
    · rename_i e; subst e; simp [hm]
    · rfl
  constructor
  · constructor
    · intro m x e
      simp only [Heap.kill, upd_apply] at e
      split at e
      · cases e
      · rename_i hmn
        have hx : x ≠ n := by rintro rfl; exact (hl m).2 e
        rw [kill_alive, kill_alive, if_neg hmn, if_neg hx]
        exact B.next _ _ e
    · intro m x e
      simp only [Heap.kill, upd_apply] at e
      split at e
      · cases e
      · rename_i hmn
        have hx : x ≠ n := by rintro rfl; exact (hl m).1 e
        rw [kill_alive, kill_alive, if_neg hmn, if_neg hx]
        exact B.first _ _ e
    · intro t x e
      have e : h.root t = some x := e
      have hx : x ≠ n := by rintro rfl; exact hrt t e
      rw [kill_alive, if_neg hx]; exact B.root _ _ e
    · intro x hx
      rw [kill_alive] at hx
      split at hx
      · cases hx
      · exact B.bound x hx
    · exact B.tbound
    · intro x t rc l e
      have e' := (hmem _ _ _ _).1 e
      have hx : x ≠ n := by rintro rfl; exact hm _ _ _ e'
      rw [kill_alive, if_neg hx]; exact B.memb _ _ _ _ e'
  · refine ⟨fun x t rc l => (hmem x t rc l).symm, ?_, fun _ => .inl ⟨rfl, rfl⟩, rfl, rfl, rfl⟩
    intro x hx
    rw [kill_alive] at hx
    split at hx
    · cases hx
    · rename_i e; simp [Heap.kill, e]

theorem Base.release {pins : List NodeId} : ∀ {f : Nat} {n : NodeId} {h h' : Heap α}, Base h →
    h.release f pins n = .ok h' → Base h' ∧ Frees h h'
  | 0, n, h, h', B, e => by cases e
  | f + 1, n, h, h', B, e => by
    unfold Heap.release at e
    split at e
    · simp only [Except.ok.injEq] at e; subst e; exact ⟨B, .refl _⟩
    · rename_i hc
      have hr : h.referenced n = false := by
        cases hx : h.referenced n with
        | false => rfl
        | true => simp [hx] at hc
      obtain ⟨B1, F1⟩ := B.kill hr
      simp only at e
      have step : ∀ {o : Option NodeId} {g g' : Heap α}, Base g →
          (match o with | some c => g.release f pins c | none => .ok g) = .ok g' →
          Base g' ∧ Frees g g' := by
        intro o g g' Bg eg
        cases o with
        | none => simp only [Except.ok.injEq] at eg; subst eg; exact ⟨Bg, .refl _⟩
        | some c => exact Base.release Bg eg
      split at e
      · cases e
      · rename_i h2 e2
        obtain ⟨B2, F2⟩ := step B1 e2
        obtain ⟨B3, F3⟩ := step B2 e
        exact ⟨B3, (F1.trans F2).trans F3⟩

/-! ### Stores to link fields -/

theorem Base.setNext {m : NodeId} {v : Option NodeId} (B : Base h) (hm : h.alive m = true)
    (hv : ∀ x, v = some x → h.alive x = true) : Base (h.setNext m v) := by
  refine ⟨?_, B.first, B.root, B.bound, B.tbound, B.memb⟩
  intro a x e
  simp only [Heap.setNext, upd_apply] at e
  split at e
  · rename_i ea; rw [ea]; exact ⟨hm, hv x e⟩
  · exact B.next _ _ e

theorem Base.setNextNone {m : NodeId} (B : Base h) : Base (h.setNext m none) := by
  refine ⟨?_, B.first, B.root, B.bound, B.tbound, B.memb⟩
  intro a x e
  simp only [Heap.setNext, upd_apply] at e
  split at e
  · cases e
  · exact B.next _ _ e

theorem Base.setFirst {m : NodeId} {v : Option NodeId} (B : Base h) (hm : h.alive m = true)
    (hv : ∀ x, v = some x → h.alive x = true) : Base (h.setFirst m v) := by
  refine ⟨B.next, ?_, B.root, B.bound, B.tbound, B.memb⟩
  intro a x e
  simp only [Heap.setFirst, upd_apply] at e
  split at e
  · rename_i ea; rw [ea]; exact ⟨hm, hv x e⟩
  · exact B.first _ _ e

theorem Base.setParent {m : NodeId} {v : Option NodeId} (B : Base h) : Base (h.setParent m v) :=
  ⟨B.next, B.first, B.root, B.bound, B.tbound, B.memb⟩
theorem Base.setPrev {m : NodeId} {v : Option NodeId} (B : Base h) : Base (h.setPrev m v) :=
  ⟨B.next, B.first, B.root, B.bound, B.tbound, B.memb⟩
theorem Base.setNum {m : NodeId} {v : Nat} (B : Base h) : Base (h.setNum m v) :=
  ⟨B.next, B.first, B.root, B.bound, B.tbound, B.memb⟩
theorem Base.numAdd {m : NodeId} {v : Nat} (B : Base h) : Base (h.numAdd m v) := B.setNum
theorem Base.setTreeRc {v : Nat} (B : Base h) : Base (h.setTreeRc t v) :=
  ⟨B.next, B.first, B.root, B.bound, B.tbound, B.memb⟩
theorem Base.setGrants {v : Int} (B : Base h) : Base (h.setGrants t v) :=
  ⟨B.next, B.first, B.root, B.bound, B.tbound, B.memb⟩

theorem Base.connect {a b : NodeId} (B : Base h) (ha : h.alive a = true) (hb : h.alive b = true) :
    Base (h.connectAdjacent a b) :=
  B.setPrev.setNext ha (fun x e => by cases e; exact hb)

theorem parentLink_alive {q : NodeId} (e : h.parentLink n = some q) : h.alive q = true := by
  simp only [Heap.parentLink, Heap.upgrade, Option.filter_eq_some_iff] at e
  exact e.2

theorem prevCycLink_alive {q : NodeId} (e : h.prevCycLink n = .ok q) : h.alive q = true := by
  unfold Heap.prevCycLink at e
  split at e
  · rename_i m hm
    simp only [Except.ok.injEq] at e; subst e
    simp only [Heap.upgrade, Option.filter_eq_some_iff] at hm
    exact hm.2
  · cases e

theorem prevLink_alive {q : NodeId} (e : h.prevLink n = .ok (some q)) : h.alive q = true := by
  simp only [Heap.prevLink, bind, Except.bind, pure, Except.pure] at e
  split at e
  · cases e
  · rename_i c hc
    split at e
    · simp only [Except.ok.injEq, Option.some.injEq] at e; subst e; exact prevCycLink_alive hc
    · cases e

theorem Base.lastChildLink_alive {q : NodeId} (e : h.lastChildLink n = .ok (some q)) :
    h.alive q = true := by
  unfold Heap.lastChildLink at e
  split at e
  · cases e
  · rename_i f hf
    cases hc : h.prevCycLink f with
    | error x => rw [hc] at e; cases e
    | ok x => rw [hc] at e; cases e; exact prevCycLink_alive hc

theorem firstLast_alive {f l : NodeId} (B : Base h) (e : h.firstLastChildLink n = .ok (some (f, l))) :
    h.alive f = true ∧ h.alive l = true := by
  unfold Heap.firstLastChildLink at e
  split at e
  · cases e
  · rename_i f' hf
    cases hc : h.prevCycLink f' with
    | error x => rw [hc] at e; cases e
    | ok x => rw [hc] at e; cases e; exact ⟨(B.first _ _ hf).2, prevCycLink_alive hc⟩

/-! ### Destruction of trees -/

theorem Base.dropStep {k : Nat} {pins : List NodeId} {v : NodeId} (B : Base h)
    (e : h.dropStep k pins v = .ok h') : Base h' ∧ Frees h h' := by
  unfold Heap.dropStep at e
  cases hp : h.parentLink v with
  | none => simp only [hp] at e; exact B.release e
  | some p =>
    simp only [hp] at e
    have B1 : Base ((h.setNext v none).setFirst p (h.next v)) :=
      B.setNextNone.setFirst (parentLink_alive hp) (fun x ex => (B.next _ _ ex).2)
    have F1 : Frees h ((h.setNext v none).setFirst p (h.next v)) :=
      (⟨rfl, rfl, rfl, rfl, rfl, rfl, rfl, rfl⟩ :
        SameNonLink h ((h.setNext v none).setFirst p (h.next v))).frees
    simp only [bind, Except.bind] at e
    split at e
    · cases e
    · rename_i h2 e2
      have : Base h2 ∧ Frees ((h.setNext v none).setFirst p (h.next v)) h2 := by
        split at e2
        · exact B1.release e2
        · cases e2; exact ⟨B1, .refl _⟩
      obtain ⟨B2, F2⟩ := this
      split at e
      · cases e
      · rename_i h3 e3
        obtain ⟨B3, F3⟩ := B2.release e3
        obtain ⟨B4, F4⟩ := B3.release e
        exact ⟨B4, F1.trans (F2.trans (F3.trans F4))⟩

theorem Base.dropLoop {k : Nat} {pins : List NodeId} : ∀ {f : Nat} {ev : Option (DftEvent NodeId)}
    {h h' : Heap α}, Base h → Heap.dropLoop k f pins ev h = .ok h' → Base h' ∧ Frees h h'
  | f, none, h, h', B, e => by
    cases f <;> simp only [Heap.dropLoop, Except.ok.injEq] at e <;> subst e <;> exact ⟨B, .refl _⟩
  | 0, some _, h, h', B, e => by cases e
  | f + 1, some (.opn n), h, h', B, e => by
    simp only [Heap.dropLoop] at e
    split at e
    · cases e
    · rename_i h1 e1
      obtain ⟨B1, F1⟩ := B.release e1
      obtain ⟨B2, F2⟩ := Base.dropLoop B1 e
      exact ⟨B2, F1.trans F2⟩
  | f + 1, some (.cls v), h, h', B, e => by
    simp only [Heap.dropLoop] at e
    split at e
    · cases e
    · rename_i h1 e1
      obtain ⟨B1, F1⟩ := B.dropStep e1
      obtain ⟨B2, F2⟩ := Base.dropLoop B1 e
      exact ⟨B2, F1.trans F2⟩

theorem Base.dropTreeWith {k : Nat} {pins : List NodeId} (B : Base h)
    (hrc : h.treeRc t = 0) (hno : ∀ n rc l, h.mem n ≠ .strong t rc l)
    (e : h.dropTreeWith k pins t = .ok h') : Base h' ∧ Frees h h' := by
  unfold Heap.dropTreeWith at e
  split at e
  · simp only [Except.ok.injEq] at e; subst e; exact ⟨B, .refl _⟩
  · rename_i r hr
    split at e
    · cases e
    · rename_i h1 e1
      obtain ⟨B1, F1⟩ := B.dropLoop e1
      have hta : ∀ u, ((h1.setRoot t none).setGrants t 0).treeAlive u =
          if u = t then false else h1.treeAlive u := by
        intro u
        simp only [Heap.treeAlive, Heap.setRoot, Heap.setGrants, upd_apply]; split <;> rfl
      have B2 : Base ((h1.setRoot t none).setGrants t 0) := by
        refine ⟨B1.next, B1.first, ?_, B1.bound, ?_, ?_⟩
        · intro u x ex
          simp only [Heap.setRoot, Heap.setGrants, upd_apply] at ex
          split at ex
          · cases ex
          · exact B1.root _ _ ex
        · intro u hu
          rw [hta] at hu
          split at hu
          · cases hu
          · exact B1.tbound u hu
        · intro x u rc l ex
          obtain ⟨a, b⟩ := B1.memb x u rc l ex
          refine ⟨a, ?_⟩
          rw [hta, if_neg]
          · exact b
          · rintro rfl
            exact hno x rc l ((F1.mem _ _ _ _).2 ex)
      have F2 : Frees h1 ((h1.setRoot t none).setGrants t 0) := by
        refine ⟨fun _ _ _ _ => Iff.rfl, fun _ _ => rfl, ?_, rfl, rfl, rfl⟩
        intro u
        by_cases hu : u = t
        · right
          refine ⟨by rw [hta, if_pos hu], by rw [hu, F1.treeRc]; exact hrc, ?_⟩
          intro x rc l ex
          rw [hu] at ex
          exact hno x rc l ((F1.mem _ _ _ _).2 ex)
        · left
          refine ⟨by rw [hta, if_neg hu], by simp [Heap.setRoot, Heap.setGrants, hu]⟩
      obtain ⟨B3, F3⟩ := B2.release e
      exact ⟨B3, (F1.trans F2).trans F3⟩

theorem Base.maybeDropTree {pins : List NodeId} (B : Base h)
    (e : h.maybeDropTree pins t = .ok h') : Base h' ∧ Frees h h' := by
  unfold Heap.maybeDropTree at e
  split at e
  · rename_i hc
    simp only [Bool.and_eq_true, beq_iff_eq, Bool.not_eq_true'] at hc
    refine B.dropTreeWith hc.1.2 ?_ e
    intro n rc l hm
    have := hasStrongMember_iff.2 ⟨n, B.bound n (B.memb _ _ _ _ hm).1, rc, l, hm⟩
    rw [hc.2] at this; cases this
  · simp only [Except.ok.injEq] at e; subst e; exact ⟨B, .refl _⟩

end Dendron
