import Verif.Spec.Cascade
import Verif.Proofs.WideFacts

/-! The release of a tree whose data owns handles: the nested destructors do not interfere. -/

set_option linter.unusedSimpArgs false
set_option linter.unusedVariables false
set_option autoImplicit false

namespace Dendron
variable {α : Type} {h h' k H H' b c c' : Heap α} {r r' r'' : World α} {x y n m : NodeId} {t u : TreeId}
  {own : NodeId → List Asset}

/-! ### Cells -/

/-- All fields of a node. -/
def Heap.cell (h : Heap α) (x : NodeId) :=
  (h.data x, h.mutB x, h.parent x, h.firstChild x, h.next x, h.prevCyc x, h.numCh x, h.mem x)

/-- All fields of a tree. -/
def Heap.tcell (h : Heap α) (t : TreeId) := (h.root t, h.grants t, h.treeRc t)

theorem cell_iff : h.cell x = k.cell x ↔ h.data x = k.data x ∧ h.mutB x = k.mutB x ∧
    h.parent x = k.parent x ∧ h.firstChild x = k.firstChild x ∧ h.next x = k.next x ∧
    h.prevCyc x = k.prevCyc x ∧ h.numCh x = k.numCh x ∧ h.mem x = k.mem x := by
  simp [Heap.cell]

theorem tcell_iff : h.tcell t = k.tcell t ↔ h.root t = k.root t ∧ h.grants t = k.grants t ∧
    h.treeRc t = k.treeRc t := by
  simp [Heap.tcell]

theorem cell_data (e : h.cell x = k.cell x) : h.data x = k.data x := (cell_iff.1 e).1
theorem cell_alive (e : h.cell x = k.cell x) : h.alive x = k.alive x := by
  simp [Heap.alive, cell_data e]
theorem cell_parent (e : h.cell x = k.cell x) : h.parent x = k.parent x := (cell_iff.1 e).2.2.1
theorem cell_first (e : h.cell x = k.cell x) : h.firstChild x = k.firstChild x := (cell_iff.1 e).2.2.2.1
theorem cell_next (e : h.cell x = k.cell x) : h.next x = k.next x := (cell_iff.1 e).2.2.2.2.1
theorem cell_mem (e : h.cell x = k.cell x) : h.mem x = k.mem x := (cell_iff.1 e).2.2.2.2.2.2.2
theorem tcell_root (e : h.tcell t = k.tcell t) : h.root t = k.root t := (tcell_iff.1 e).1
theorem tcell_alive (e : h.tcell t = k.tcell t) : h.treeAlive t = k.treeAlive t := by
  simp [Heap.treeAlive, tcell_root e]

theorem Heap.ext_cells (e1 : ∀ x, h.cell x = k.cell x) (e2 : ∀ t, h.tcell t = k.tcell t)
    (e3 : h.nNode = k.nNode) (e4 : h.nTree = k.nTree) : h = k := by
  have a := fun x => cell_iff.1 (e1 x)
  have b := fun t => tcell_iff.1 (e2 t)
  cases h; cases k
  simp only at a b e3 e4
  subst e3 e4
  congr 1
  · funext x; exact (a x).1
  · funext x; exact (a x).2.1
  · funext x; exact (a x).2.2.1
  · funext x; exact (a x).2.2.2.1
  · funext x; exact (a x).2.2.2.2.1
  · funext x; exact (a x).2.2.2.2.2.1
  · funext x; exact (a x).2.2.2.2.2.2.1
  · funext x; exact (a x).2.2.2.2.2.2.2
  · funext x; exact (b x).1
  · funext x; exact (b x).2.1
  · funext x; exact (b x).2.2

theorem kill_cell_ne (hx : x ≠ n) : (h.kill n).cell x = h.cell x := by
  simp [Heap.cell, Heap.kill, hx]

theorem kill_cell_same : (h.kill n).cell n = (k.kill n).cell n := by
  simp [Heap.cell, Heap.kill]

theorem kill_cell (e : h.cell x = k.cell x) : (h.kill n).cell x = (k.kill n).cell x := by
  by_cases hx : x = n
  · subst hx; exact kill_cell_same
  · rw [kill_cell_ne hx, kill_cell_ne hx, e]

theorem kill_tcell : (h.kill n).tcell t = h.tcell t := rfl

theorem setMem_cell_ne {v : Membership} (hx : x ≠ n) : (h.setMem n v).cell x = h.cell x := by
  simp [Heap.cell, Heap.setMem, hx]

theorem setMem_cell {v : Membership} (e : h.cell x = k.cell x) : (h.setMem n v).cell x = (k.setMem n v).cell x := by
  by_cases hx : x = n
  · subst hx
    rw [cell_iff] at e ⊢
    simp only [Heap.setMem, upd_same]
    exact ⟨e.1, e.2.1, e.2.2.1, e.2.2.2.1, e.2.2.2.2.1, e.2.2.2.2.2.1, e.2.2.2.2.2.2.1, trivial⟩
  · rw [setMem_cell_ne hx, setMem_cell_ne hx, e]

theorem setNext_cell {v : Option NodeId} (e : h.cell x = k.cell x) :
    (h.setNext n v).cell x = (k.setNext n v).cell x := by
  rw [cell_iff] at e ⊢
  simp only [Heap.setNext, upd_apply]
  refine ⟨e.1, e.2.1, e.2.2.1, e.2.2.2.1, ?_, e.2.2.2.2.2.1, e.2.2.2.2.2.2.1, e.2.2.2.2.2.2.2⟩
  split
  · rfl
  · exact e.2.2.2.2.1

theorem setFirst_cell {v : Option NodeId} (e : h.cell x = k.cell x) :
    (h.setFirst n v).cell x = (k.setFirst n v).cell x := by
  rw [cell_iff] at e ⊢
  simp only [Heap.setFirst, upd_apply]
  refine ⟨e.1, e.2.1, e.2.2.1, ?_, e.2.2.2.2.1, e.2.2.2.2.2.1, e.2.2.2.2.2.2.1, e.2.2.2.2.2.2.2⟩
  split
  · rfl
  · exact e.2.2.2.1

theorem setNext_cell_ne {v : Option NodeId} (hx : x ≠ n) : (h.setNext n v).cell x = h.cell x := by
  simp [Heap.cell, Heap.setNext, hx]

theorem setFirst_cell_ne {v : Option NodeId} (hx : x ≠ n) : (h.setFirst n v).cell x = h.cell x := by
  simp [Heap.cell, Heap.setFirst, hx]

/-! ### What surrounds a destructor -/

/-- The links of living nodes lead to living nodes. -/
structure Sane (b : Heap α) : Prop where
  first : ∀ x y, b.alive x = true → b.firstChild x = some y → b.alive y = true
  next : ∀ x y, b.alive x = true → b.next x = some y → b.alive y = true
  parent : ∀ x y, b.alive x = true → b.parent x = some y → b.alive y = true
  root : ∀ t y, b.root t = some y → b.alive y = true
  strong : ∀ x t rc l, b.mem x = .strong t rc l → b.alive x = true

theorem FWF.sane {ch : NodeId → List NodeId} (W : FWF b ch) : Sane b where
  first x y ha e := by
    rw [W.first x ha] at e
    exact W.toFShape.alive_of_mem (List.mem_of_head? e)
  next x y ha e := by
    obtain ⟨p, -, hp⟩ := W.toFShape.dropShape.nextRef x y ha e
    exact W.toFShape.alive_of_mem hp
  parent x y ha e := W.toFShape.alive_parent ((W.mem y x).2 ⟨ha, e⟩)
  root t y e := (W.tree.root t y e).1
  strong x t rc l e := W.refs.alive _ _ _ _ e

/-- The memory is `H`; what is going on outside of the regions `V` (nodes being freed) and `TV` (trees being
destroyed) is the memory `b`, in which these are gone. -/
structure Ctx (V : NodeId → Prop) (TV : TreeId → Prop) (H b : Heap α) : Prop where
  nNode : H.nNode = b.nNode
  nTree : H.nTree = b.nTree
  out : ∀ x, ¬ V x → H.cell x = b.cell x
  outT : ∀ t, ¬ TV t → H.tcell t = b.tcell t
  dead : ∀ x, V x → b.alive x = false
  deadT : ∀ t, TV t → b.treeAlive t = false
  weak : ∀ x t rc l, V x → H.mem x ≠ .strong t rc l
  first : ∀ x y, V x → H.firstChild x = some y → V y
  next : ∀ x y, V x → H.next x = some y → V y
  parent : ∀ x y, V x → H.parent x = some y → V y
  root : ∀ t y, TV t → H.root t = some y → V y

section
variable {V V2 : NodeId → Prop} {TV : TreeId → Prop}

theorem Ctx.alive_out (C : Ctx V TV H b) (ha : b.alive x = true) : ¬ V x := by
  intro hv; rw [C.dead x hv] at ha; cases ha

theorem Ctx.tree_out (C : Ctx V TV H b) (ha : b.treeAlive t = true) : ¬ TV t := by
  intro hv; rw [C.deadT t hv] at ha; cases ha

theorem Ctx.referenced (C : Ctx V TV H b) (S : Sane b) (hx : ¬ V x) :
    H.referenced x = b.referenced x := by
  rw [Bool.eq_iff_iff, referenced_iff, referenced_iff]
  have hm := cell_mem (C.out x hx)
  refine or_congr (by rw [hm]) (or_congr ?_ ?_)
  · constructor
    · rintro ⟨t, h1, h2⟩
      have ht : ¬ TV t := fun ht => hx (C.root t x ht h2)
      exact ⟨t, C.nTree ▸ h1, by rw [← tcell_root (C.outT t ht)]; exact h2⟩
    · rintro ⟨t, h1, h2⟩
      have ht : ¬ TV t := fun ht => by
        have := C.deadT t ht
        simp [Heap.treeAlive, h2] at this
      exact ⟨t, C.nTree ▸ h1, by rw [tcell_root (C.outT t ht)]; exact h2⟩
  · constructor
    · rintro ⟨m, h1, h2, h3⟩
      have hv : ¬ V m := fun hv => hx (h3.elim (C.first m x hv) (C.next m x hv))
      have e := C.out m hv
      exact ⟨m, C.nNode ▸ h1, by rw [← cell_alive e]; exact h2,
        by rw [← cell_first e, ← cell_next e]; exact h3⟩
    · rintro ⟨m, h1, h2, h3⟩
      have e := C.out m (C.alive_out h2)
      exact ⟨m, C.nNode ▸ h1, by rw [cell_alive e]; exact h2,
        by rw [cell_first e, cell_next e]; exact h3⟩

theorem Ctx.hasStrong (C : Ctx V TV H b) (S : Sane b) : H.hasStrongMember t = b.hasStrongMember t := by
  rw [Bool.eq_iff_iff, hasStrongMember_iff, hasStrongMember_iff]
  constructor
  · rintro ⟨n, hn, rc, l, e⟩
    have hv : ¬ V n := fun hv => C.weak n _ _ _ hv e
    exact ⟨n, C.nNode ▸ hn, rc, l, by rw [← cell_mem (C.out n hv)]; exact e⟩
  · rintro ⟨n, hn, rc, l, e⟩
    have hv := C.alive_out (S.strong _ _ _ _ e)
    exact ⟨n, C.nNode ▸ hn, rc, l, by rw [cell_mem (C.out n hv)]; exact e⟩

end

/-! ### Dropping things one after the other -/

/-- Nothing happens to what is already gone. -/
structure Fade (h h' : Heap α) : Prop where
  node : ∀ x, h.alive x = false → h'.cell x = h.cell x
  tree : ∀ t, h.treeAlive t = false → h'.tcell t = h.tcell t
  nNode : h'.nNode = h.nNode
  nTree : h'.nTree = h.nTree

theorem Fade.refl (h : Heap α) : Fade h h := ⟨fun _ _ => rfl, fun _ _ => rfl, rfl, rfl⟩

theorem Fade.dead (F : Fade h h') (hx : h.alive x = false) : h'.alive x = false := by
  rw [cell_alive (F.node x hx)]; exact hx

theorem Fade.deadT (F : Fade h h') (hx : h.treeAlive t = false) : h'.treeAlive t = false := by
  rw [tcell_alive (F.tree t hx)]; exact hx

theorem Fade.alive (F : Fade h h') (hx : h'.alive x = true) : h.alive x = true := by
  cases e : h.alive x with
  | true => rfl
  | false => rw [F.dead e] at hx; cases hx

theorem Fade.trans {h'' : Heap α} (F : Fade h h') (G : Fade h' h'') : Fade h h'' :=
  ⟨fun x hx => (G.node x (F.dead hx)).trans (F.node x hx),
    fun t ht => (G.tree t (F.deadT ht)).trans (F.tree t ht), G.nNode.trans F.nNode, G.nTree.trans F.nTree⟩

theorem Drops.append {as bs : List Asset} (D : Drops own as r r') : Drops own bs r' r'' →
    Drops own (as ++ bs) r r'' := by
  induction D with
  | nil => exact id
  | cons s hl hm _ ih =>
    intro E
    refine .cons s hl hm ?_
    have := ih E
    rwa [List.append_assoc] at this

theorem Drops.reach {as : List Asset} (D : Drops own as r r') : ReachW r → ReachW r' := by
  induction D with
  | nil => exact id
  | cons s _ _ _ ih => exact fun hr => ih (.step hr s)

/-- At most `N` nodes are alive. -/
def Few (N : Nat) (h : Heap α) : Prop :=
  ∀ L : List NodeId, L.Nodup → (∀ x ∈ L, h.alive x = true) → L.length ≤ N

theorem Few.fade {N : Nat} (F : Few N h) (G : Fade h h') : Few N h' :=
  fun L hd hl => F L hd fun x hx => G.alive (hl x hx)

/-- What has happened when the things `P` have been dropped. -/
structure Ran (own : NodeId → List Asset) (P rest : List Asset) (V : NodeId → Prop) (TV : TreeId → Prop)
    (H : Heap α) (r : World α) (H' : Heap α) (r' : World α) : Prop where
  ctx : Ctx V TV H' r'.heap
  node : ∀ x, V x → H'.cell x = H.cell x
  tree : ∀ t, TV t → H'.tcell t = H.tcell t
  drops : Drops own P r r'
  stored : OwnsAll own r' rest
  room : Room r'.heap
  fade : Fade r.heap r'.heap

/-- The nest lies in the regions. -/
structure Nest.In (c : Nest) (V : NodeId → Prop) (TV : TreeId → Prop) (H : Heap α) : Prop where
  pins : ∀ x ∈ c.pins, V x
  busy : ∀ x ∈ c.busy, V x
  dying : ∀ t ∈ c.dying, TV t
  gone : ∀ t, TV t → t ∈ c.dying ∨ H.treeAlive t = false

/-- The destructor drops what the data owns, as long as at most `N` nodes are alive. -/
def Good (own : NodeId → List Asset) (dt : Dtor α) (N : Nat) : Prop :=
  ∀ (V : NodeId → Prop) (TV : TreeId → Prop) (H : Heap α) (r : World α) (x : NodeId) (rest : List Asset)
    (c : Nest), ReachW r → Room r.heap → Ctx V TV H r.heap → c.In V TV H → OwnsAll own r (own x ++ rest) →
    Few N r.heap → ∃ H' r', dt c x H = .ok H' ∧ Ran own (own x) rest V TV H r H' r'

/-! ### The release of a tree, with destructors -/

/-- The same release without destructors is at `c`, the real one at `H`; `r` is the program with the tree
already gone, and everything dropped so far. -/
structure QI (own : NodeId → List Asset) (V V2 : NodeId → Prop) (TV : TreeId → Prop) (t2 : TreeId)
    (H0 : Heap α) (rest : List Asset) (N : Nat) (H c : Heap α) (r : World α) : Prop where
  ctx : Ctx (fun x => V x ∨ V2 x) (fun t => TV t ∨ t = t2) H r.heap
  same : ∀ x, V2 x → H.cell x = c.cell x
  sameT : H.tcell t2 = c.tcell t2
  nNode : H.nNode = c.nNode
  nTree : H.nTree = c.nTree
  awayF : ∀ m y, ¬ V2 m → c.alive m = true → c.firstChild m = some y → ¬ V2 y
  awayN : ∀ m y, ¬ V2 m → c.alive m = true → c.next m = some y → ¬ V2 y
  awayR : ∀ t y, t ≠ t2 → c.root t = some y → ¬ V2 y
  inF : ∀ m y, V2 m → c.firstChild m = some y → V2 y
  inN : ∀ m y, V2 m → c.next m = some y → V2 y
  inP : ∀ m y, V2 m → c.parent m = some y → V2 y
  inR : ∀ y, c.root t2 = some y → V2 y
  keep : ∀ x, V x → H.cell x = H0.cell x
  keepT : ∀ t, TV t → H.tcell t = H0.tcell t
  reach : ReachW r
  room : Room r.heap
  stored : ∃ L : List NodeId, L.Nodup ∧ (∀ x, x ∈ L ↔ V2 x ∧ c.alive x = true) ∧
    OwnsAll own r (L.flatMap own ++ rest)
  few : Few N r.heap

/-- Progress of the release. -/
structure Tr (own : NodeId → List Asset) (V2 : NodeId → Prop) (c c' : Heap α) (r r' : World α) : Prop where
  mono : ∀ x, c.alive x = false → c'.alive x = false
  fade : Fade r.heap r'.heap
  drops : ∃ ms : List NodeId, ms.Nodup ∧
    (∀ x, x ∈ ms ↔ V2 x ∧ c.alive x = true ∧ c'.alive x = false) ∧ Drops own (ms.flatMap own) r r'

section
variable {V V2 : NodeId → Prop} {TV : TreeId → Prop} {t2 : TreeId} {H0 : Heap α} {rest : List Asset}
  {N : Nat}

theorem Tr.refl : Tr own V2 c c r r :=
  ⟨fun _ h => h, .refl _, [], by simp, by simp, .nil _⟩

/-- A step in which nobody dies. -/
theorem Tr.same (e : ∀ x, c'.alive x = c.alive x) : Tr own V2 c c' r r :=
  ⟨fun x h => (e x).trans h, .refl _, [], by simp, fun x => by simp [e], .nil _⟩

theorem Tr.trans {c'' : Heap α} (T : Tr own V2 c c' r r') (T' : Tr own V2 c' c'' r' r'') :
    Tr own V2 c c'' r r'' := by
  obtain ⟨ms, h1, h2, h3⟩ := T.drops
  obtain ⟨ms', h1', h2', h3'⟩ := T'.drops
  refine ⟨fun x hx => T'.mono x (T.mono x hx), T.fade.trans T'.fade, ms ++ ms', ?_, ?_, ?_⟩
  · rw [List.nodup_append]
    refine ⟨h1, h1', ?_⟩
    rintro a ha b hb rfl
    have e1 := ((h2 a).1 ha).2.2
    have e2 := ((h2' a).1 hb).2.1
    rw [e1] at e2; cases e2
  · intro x
    rw [List.mem_append, h2, h2']
    constructor
    · rintro (⟨a1, a2, a3⟩ | ⟨a1, a2, a3⟩)
      · exact ⟨a1, a2, T'.mono x a3⟩
      · refine ⟨a1, ?_, a3⟩
        cases e : c.alive x with
        | true => rfl
        | false => rw [T.mono x e] at a2; cases a2
    · rintro ⟨a1, a2, a3⟩
      cases e : c'.alive x with
      | true => exact .inr ⟨a1, rfl, a3⟩
      | false => exact .inl ⟨a1, a2, rfl⟩
  · rw [List.flatMap_append]; exact h3.append h3'

theorem QI.referenced {b0 : Heap α} (Q : QI own V V2 TV t2 H0 rest N H c r) (Z : Ctx V TV H0 b0)
    (hd : ∀ x, V x → ¬ V2 x) (S : Sane r.heap) (hx : V2 x) : H.referenced x = c.referenced x := by
  rw [Bool.eq_iff_iff, referenced_iff, referenced_iff]
  have hm := cell_mem (Q.same x hx)
  have hu : r.heap.alive x = false := Q.ctx.dead x (.inr hx)
  refine or_congr (by rw [hm]) (or_congr ?_ ?_)
  · constructor
    · rintro ⟨t, h1, h2⟩
      by_cases ht : t = t2
      · subst ht
        exact ⟨t, Q.nTree ▸ h1, by rw [← tcell_root Q.sameT]; exact h2⟩
      · exfalso
        by_cases hv : TV t
        · rw [tcell_root (Q.keepT t hv)] at h2
          exact hd x (Z.root t x hv h2) hx
        · rw [tcell_root (Q.ctx.outT t (fun e => e.elim hv ht))] at h2
          rw [S.root t x h2] at hu; cases hu
    · rintro ⟨t, h1, h2⟩
      by_cases ht : t = t2
      · subst ht
        exact ⟨t, Q.nTree ▸ h1, by rw [tcell_root Q.sameT]; exact h2⟩
      · exact absurd hx (Q.awayR t x ht h2)
  · constructor
    · rintro ⟨m, h1, h2, h3⟩
      by_cases hm2 : V2 m
      · have e := Q.same m hm2
        exact ⟨m, Q.nNode ▸ h1, by rw [← cell_alive e]; exact h2,
          by rw [← cell_first e, ← cell_next e]; exact h3⟩
      · exfalso
        by_cases hv : V m
        · have e := Q.keep m hv
          rw [cell_first e, cell_next e] at h3
          exact hd x (h3.elim (Z.first m x hv) (Z.next m x hv)) hx
        · have e := Q.ctx.out m (fun e => e.elim hv hm2)
          rw [cell_first e, cell_next e] at h3
          rw [cell_alive e] at h2
          rw [h3.elim (S.first m x h2) (S.next m x h2)] at hu; cases hu
    · rintro ⟨m, h1, h2, h3⟩
      by_cases hm2 : V2 m
      · have e := Q.same m hm2
        exact ⟨m, Q.nNode ▸ h1, by rw [cell_alive e]; exact h2,
          by rw [cell_first e, cell_next e]; exact h3⟩
      · exact absurd hx (h3.elim (Q.awayF m x hm2 h2) (Q.awayN m x hm2 h2))

/-- A change inside the region. -/
theorem QI.change (Q : QI own V V2 TV t2 H0 rest N H c r) (hd : ∀ x, V x → ¬ V2 x) (hdt : ¬ TV t2)
    (e1 : ∀ x, ¬ V2 x → H'.cell x = H.cell x) (e2 : ∀ t, t ≠ t2 → H'.tcell t = H.tcell t)
    (e3 : H'.nNode = H.nNode) (e4 : H'.nTree = H.nTree)
    (f1 : ∀ x, ¬ V2 x → c'.cell x = c.cell x) (f2 : ∀ t, t ≠ t2 → c'.tcell t = c.tcell t)
    (f3 : c'.nNode = c.nNode) (f4 : c'.nTree = c.nTree)
    (g1 : ∀ x, V2 x → H'.cell x = c'.cell x) (g2 : H'.tcell t2 = c'.tcell t2)
    (i1 : ∀ m y, V2 m → c'.firstChild m = some y → V2 y)
    (i2 : ∀ m y, V2 m → c'.next m = some y → V2 y)
    (i3 : ∀ m y, V2 m → c'.parent m = some y → V2 y)
    (i4 : ∀ y, c'.root t2 = some y → V2 y)
    (i5 : ∀ m t rc l, V2 m → c'.mem m ≠ .strong t rc l)
    (i6 : ∃ L : List NodeId, L.Nodup ∧ (∀ x, x ∈ L ↔ V2 x ∧ c'.alive x = true) ∧
      OwnsAll own r (L.flatMap own ++ rest)) :
    QI own V V2 TV t2 H0 rest N H' c' r := by
  have C := Q.ctx
  refine { ctx := ?_, same := g1, sameT := g2, nNode := by rw [e3, f3, Q.nNode], nTree := by rw [e4, f4, Q.nTree],
           awayF := ?_, awayN := ?_, awayR := ?_, inF := i1, inN := i2, inP := i3, inR := i4,
           keep := fun x hx => (e1 x (hd x hx)).trans (Q.keep x hx),
           keepT := fun t ht => (e2 t (fun e => hdt (e ▸ ht))).trans (Q.keepT t ht),
           reach := Q.reach, room := Q.room, stored := i6, few := Q.few }
  · refine { nNode := e3.trans C.nNode, nTree := e4.trans C.nTree, out := ?_, outT := ?_, dead := C.dead,
             deadT := C.deadT, weak := ?_, first := ?_, next := ?_, parent := ?_, root := ?_ }
    · intro x hx; rw [e1 x (fun h => hx (.inr h))]; exact C.out x hx
    · intro t ht; rw [e2 t (fun h => ht (.inr h))]; exact C.outT t ht
    · intro x t rc l hx
      by_cases h2 : V2 x
      · rw [cell_mem (g1 x h2)]; exact i5 x t rc l h2
      · rw [cell_mem (e1 x h2)]; exact C.weak x t rc l hx
    · intro x y hx e
      by_cases h2 : V2 x
      · rw [cell_first (g1 x h2)] at e; exact .inr (i1 x y h2 e)
      · rw [cell_first (e1 x h2)] at e; exact C.first x y hx e
    · intro x y hx e
      by_cases h2 : V2 x
      · rw [cell_next (g1 x h2)] at e; exact .inr (i2 x y h2 e)
      · rw [cell_next (e1 x h2)] at e; exact C.next x y hx e
    · intro x y hx e
      by_cases h2 : V2 x
      · rw [cell_parent (g1 x h2)] at e; exact .inr (i3 x y h2 e)
      · rw [cell_parent (e1 x h2)] at e; exact C.parent x y hx e
    · intro t y ht e
      by_cases h2 : t = t2
      · subst h2; rw [tcell_root g2] at e; exact .inr (i4 y e)
      · rw [tcell_root (e2 t h2)] at e; exact C.root t y ht e
  · intro m y hm ha e
    rw [cell_alive (f1 m hm)] at ha; rw [cell_first (f1 m hm)] at e
    exact Q.awayF m y hm ha e
  · intro m y hm ha e
    rw [cell_alive (f1 m hm)] at ha; rw [cell_next (f1 m hm)] at e
    exact Q.awayN m y hm ha e
  · intro t y ht e
    rw [tcell_root (f2 t ht)] at e
    exact Q.awayR t y ht e

theorem QI.weak (Q : QI own V V2 TV t2 H0 rest N H c r) (m : NodeId) (t : TreeId) (rc l : Nat) (hm : V2 m) :
    c.mem m ≠ .strong t rc l := by
  rw [← cell_mem (Q.same m hm)]; exact Q.ctx.weak m t rc l (.inr hm)

theorem OwnsAll.sub {P P' : List Asset} (S : OwnsAll own r P) (h : ∀ a, P'.count a ≤ P.count a) : OwnsAll own r P' := by
  intro L hd hl a
  have := S L hd hl a
  rw [List.count_append] at this ⊢
  have := h a
  omega

theorem count_flatMap_erase {L : List NodeId} (hn : n ∈ L) (a : Asset) :
    (own n ++ (L.erase n).flatMap own).count a = (L.flatMap own).count a := by
  rw [← List.flatMap_cons]
  exact ((List.perm_cons_erase hn).flatMap_right own).symm.count_eq a

/-- What the destructor has left. -/
theorem QI.ran {P : List Asset} (Q : QI own V V2 TV t2 H0 rest N H c r) {L : List NodeId}
    (hL : L.Nodup) (hm : ∀ x, x ∈ L ↔ V2 x ∧ c.alive x = true)
    (R : Ran own P (L.flatMap own ++ rest) (fun x => V x ∨ V2 x) (fun t => TV t ∨ t = t2) H r H' r') :
    QI own V V2 TV t2 H0 rest N H' c r' :=
  { ctx := R.ctx
    same := fun x hx => (R.node x (.inr hx)).trans (Q.same x hx)
    sameT := (R.tree t2 (.inr rfl)).trans Q.sameT
    nNode := by rw [R.ctx.nNode, R.fade.nNode, ← Q.ctx.nNode, Q.nNode]
    nTree := by rw [R.ctx.nTree, R.fade.nTree, ← Q.ctx.nTree, Q.nTree]
    awayF := Q.awayF
    awayN := Q.awayN
    awayR := Q.awayR
    inF := Q.inF
    inN := Q.inN
    inP := Q.inP
    inR := Q.inR
    keep := fun x hx => (R.node x (.inl hx)).trans (Q.keep x hx)
    keepT := fun t ht => (R.tree t (.inl ht)).trans (Q.keepT t ht)
    reach := R.drops.reach Q.reach
    room := R.room
    stored := ⟨L, hL, hm, R.stored⟩
    few := Q.few.fade R.fade }

theorem cell_kill_alive : (h.kill n).alive x = if x = n then false else h.alive x := by
  by_cases hx : x = n <;> simp [Heap.alive, Heap.kill, hx]

/-- The destructor of the data of a node of the region runs. -/
theorem QI.dtor {dt : Dtor α} {e : Nest} (Q : QI own V V2 TV t2 H0 rest N H c r) (G : Good own dt N)
    (hE : e.In (fun x => V x ∨ V2 x) (fun t => TV t ∨ t = t2) (H.kill n))
    (hd : ∀ x, V x → ¬ V2 x) (hdt : ¬ TV t2) (hn : V2 n) (ha : c.alive n = true) :
    ∃ H' r', dt e n (H.kill n) = .ok H' ∧ QI own V V2 TV t2 H0 rest N H' (c.kill n) r' ∧
      Tr own V2 c (c.kill n) r r' := by
  have hko : ∀ {k : Heap α} x, ¬ V2 x → (k.kill n).cell x = k.cell x :=
    fun x hx => kill_cell_ne (fun e => hx (e ▸ hn))
  obtain ⟨L, hL, hm, hS⟩ := Q.stored
  have hnL : n ∈ L := (hm n).2 ⟨hn, ha⟩
  have hm' : ∀ x, x ∈ L.erase n ↔ V2 x ∧ (c.kill n).alive x = true := by
    intro x
    rw [hL.mem_erase_iff, hm, cell_kill_alive]
    by_cases hx : x = n <;> simp [hx]
  have hS' : OwnsAll own r (own n ++ ((L.erase n).flatMap own ++ rest)) := by
    refine hS.sub fun a => ?_
    rw [← List.append_assoc, List.count_append, count_flatMap_erase hnL, List.count_append]
    exact Nat.le_refl _
  have Q1 : QI own V V2 TV t2 H0 rest N (H.kill n) (c.kill n) r := by
    refine Q.change hd hdt (fun x => hko x) (fun _ _ => rfl) rfl rfl (fun x => hko x) (fun _ _ => rfl) rfl rfl
      (fun x hx => kill_cell (Q.same x hx)) Q.sameT ?_ ?_ ?_ Q.inR ?_
      ⟨L.erase n, hL.erase n, hm', hS'.sub fun a => by simp only [List.count_append]; omega⟩
    · intro m y hm2
      simp only [Heap.kill, upd_apply]
      split
      · intro e; cases e
      · exact Q.inF m y hm2
    · intro m y hm2
      simp only [Heap.kill, upd_apply]
      split
      · intro e; cases e
      · exact Q.inN m y hm2
    · intro m y hm2
      simp only [Heap.kill, upd_apply]
      split
      · intro e; cases e
      · exact Q.inP m y hm2
    · intro m t rc l hm2
      simp only [Heap.kill, upd_apply]
      split
      · intro e; cases e
      · exact Q.weak m t rc l hm2
  obtain ⟨H', r', e1, R⟩ := G _ _ _ _ n _ e Q1.reach Q1.room Q1.ctx hE hS' Q1.few
  refine ⟨H', r', e1, Q1.ran (hL.erase n) hm' R, ?_, R.fade, [n], by simp, ?_, ?_⟩
  · intro x hx; rw [cell_kill_alive]; split
    · rfl
    · exact hx
  · intro x
    rw [List.mem_singleton, cell_kill_alive]
    constructor
    · rintro rfl; exact ⟨hn, ha, by simp⟩
    · rintro ⟨-, h1, h2⟩
      by_cases hx : x = n
      · exact hx
      · rw [if_neg hx, h1] at h2; cases h2
  · simpa using R.drops

/-- The pins of the two runs are the same in the region. -/
structure Pins (V V2 : NodeId → Prop) (pc pu : List NodeId) : Prop where
  same : ∀ x, V2 x → (x ∈ pc ↔ x ∈ pu)
  within : ∀ x ∈ pc, V x ∨ V2 x

theorem Pins.cons {pc pu : List NodeId} (P : Pins V V2 pc pu) (hn : V2 n) : Pins V V2 (n :: pc) (n :: pu) :=
  ⟨fun x hx => by simp [P.same x hx], fun x hx => by
    rcases List.mem_cons.1 hx with rfl | h1
    · exact .inr hn
    · exact P.within x h1⟩

variable {dt : Dtor α} {e : Nest} {b0 : Heap α}

/-- The trees being destroyed. -/
structure Deaths (e : Nest) (TV : TreeId → Prop) (t2 : TreeId) (H0 : Heap α) : Prop where
  dying : ∀ t ∈ e.dying, TV t ∨ t = t2
  gone : ∀ t, TV t → t ∈ e.dying ∨ H0.treeAlive t = false

theorem root_release : ∀ {f : Nat} {pins : List NodeId} {n : NodeId} {h h' : Heap α},
    h.release f pins n = .ok h' → h'.root = h.root
  | 0, _, _, _, _, e => by simp [Heap.release] at e
  | f + 1, pins, n, h, h', e => by
    simp only [Heap.release] at e
    split at e
    · cases e; rfl
    · have step : ∀ {o : Option NodeId} {c1 c2 : Heap α},
          (match o with | some x => Heap.release f pins x c1 | none => .ok c1) = .ok c2 → c2.root = c1.root := by
        intro o c1 c2 h2
        cases o with
        | none => cases h2; rfl
        | some x => exact root_release h2
      split at e
      · cases e
      · rename_i c2 h2
        exact (step e).trans ((step h2).trans rfl)

theorem QI.release (G : Good own dt N) (Z : Ctx V TV H0 b0) (hd : ∀ x, V x → ¬ V2 x) (hdt : ¬ TV t2)
    (hB : ∀ x ∈ e.busy, V x ∨ V2 x) (hD : Deaths e TV t2 H0) :
    ∀ (f : Nat) {pc pu : List NodeId} {n : NodeId} {H c c' : Heap α} {r : World α},
    QI own V V2 TV t2 H0 rest N H c r → (t2 ∈ e.dying ∨ c.treeAlive t2 = false) → V2 n → Pins V V2 pc pu → c.release f pu n = .ok c' →
    ∃ H' r', H.releaseC dt e f pc n = .ok H' ∧ QI own V V2 TV t2 H0 rest N H' c' r' ∧ Tr own V2 c c' r r'
  | 0, pc, pu, n, H, c, c', r, Q, hg, hn, hp, hr => by simp [Heap.release] at hr
  | f + 1, pc, pu, n, H, c, c', r, Q, hg, hn, hp, hr => by
    have S : Sane r.heap := by
      obtain ⟨v, ch, W⟩ := Q.reach.wide; exact W.fwd.sane
    have ea := cell_alive (Q.same n hn)
    have er := Q.referenced Z hd S hn
    have ep : pc.contains n = pu.contains n := by
      rw [Bool.eq_iff_iff, List.contains_iff_mem, List.contains_iff_mem]; exact hp.same n hn
    simp only [Heap.release] at hr
    simp only [Heap.releaseC, ea, er, ep]
    split at hr
    · rename_i hc
      rw [if_pos hc]
      obtain rfl : c = c' := by simpa using hr
      exact ⟨H, r, rfl, Q, .refl⟩
    · rename_i hc
      rw [if_neg hc]
      have hal : c.alive n = true := by
        cases e : c.alive n with
        | true => rfl
        | false => simp [e] at hc
      rw [cell_first (Q.same n hn), cell_next (Q.same n hn)]
      have hE : ({ e with pins := (c.firstChild n).toList ++ (c.next n).toList ++ pc } : Nest).In
          (fun x => V x ∨ V2 x) (fun t => TV t ∨ t = t2) (H.kill n) := by
        refine ⟨?_, hB, hD.dying, ?_⟩
        rotate_left
        · rintro t (ht | rfl)
          · rcases hD.gone t ht with h1 | h1
            · exact .inl h1
            · right
              show H.treeAlive t = false
              rw [tcell_alive (Q.keepT t ht)]; exact h1
          · rcases hg with h1 | h1
            · exact .inl h1
            · right
              show H.treeAlive t = false
              rw [tcell_alive Q.sameT]; exact h1
        intro x hx
        simp only [List.mem_append, Option.mem_toList] at hx
        rcases hx with (h1 | h1) | h1
        · exact .inr (Q.inF n x hn h1)
        · exact .inr (Q.inN n x hn h1)
        · exact hp.within x h1
      obtain ⟨H1, r1, e1, Q1, T1⟩ := Q.dtor G hE hd hdt hn hal
      simp only [e1]
      have step : ∀ {o : Option NodeId} {H1 c1 c2 : Heap α} {r1 : World α},
          QI own V V2 TV t2 H0 rest N H1 c1 r1 → c1.root = c.root → (∀ x, o = some x → V2 x) →
          (match o with | some x => Heap.release f pu x c1 | none => .ok c1) = .ok c2 →
          ∃ H2 r2, (match o with | some x => Heap.releaseC dt e f pc x H1 | none => .ok H1) = .ok H2 ∧
            QI own V V2 TV t2 H0 rest N H2 c2 r2 ∧ Tr own V2 c1 c2 r1 r2 ∧ c2.root = c.root := by
        intro o H1 c1 c2 r1 Q1 hrt ho h2
        cases o with
        | none =>
          obtain rfl : c1 = c2 := by simpa using h2
          exact ⟨H1, r1, rfl, Q1, .refl, hrt⟩
        | some x =>
          obtain ⟨H2, r2, g1, g2, g3⟩ := QI.release G Z hd hdt hB hD f Q1
            (hg.imp id fun h => by simpa [Heap.treeAlive, hrt] using h) (ho x rfl) hp h2
          exact ⟨H2, r2, g1, g2, g3, (root_release h2).trans hrt⟩
      split at hr
      · cases hr
      · rename_i c2 h2
        obtain ⟨H2, r2, e2, Q2, T2, hrt⟩ := step Q1 rfl (fun x hx => Q.inF n x hn hx) h2
        obtain ⟨H3, r3, e3, Q3, T3, -⟩ := step Q2 hrt (fun x hx => Q.inN n x hn hx) hr
        refine ⟨H3, r3, ?_, Q3, (T1.trans T2).trans T3⟩
        cases hf : c.firstChild n <;> simp only [hf] at e2 ⊢
        · cases e2; exact e3
        · simp only [e2]; exact e3

theorem QI.parentLink (Q : QI own V V2 TV t2 H0 rest N H c r) (hn : V2 n) :
    H.parentLink n = c.parentLink n := by
  unfold Heap.parentLink Heap.upgrade
  rw [cell_parent (Q.same n hn)]
  cases hp : c.parent n with
  | none => rfl
  | some p =>
    simp only [Option.filter, cell_alive (Q.same p (Q.inP n p hn hp))]

theorem QI.parentLink_in (Q : QI own V V2 TV t2 H0 rest N H c r) (hn : V2 n) (hp : c.parentLink n = some m) :
    V2 m := by
  unfold Heap.parentLink Heap.upgrade at hp
  cases hq : c.parent n with
  | none => rw [hq] at hp; cases hp
  | some q =>
    rw [hq] at hp
    simp only [Option.filter] at hp
    split at hp
    · obtain rfl : q = m := by simpa using hp
      exact Q.inP n q hn hq
    · cases hp

theorem QI.evNext (Q : QI own V V2 TV t2 H0 rest N H c r) {ev : DftEvent NodeId} (hn : V2 ev.value) :
    H.evNext ev = c.evNext ev ∧ ∀ e', c.evNext ev = some e' → V2 e'.value := by
  cases ev with
  | opn v =>
    replace hn : V2 v := hn
    simp only [Heap.evNext, Heap.firstChildLink, cell_first (Q.same v hn)]
    refine ⟨trivial, ?_⟩
    intro e' he
    cases hf : c.firstChild v with
    | none => rw [hf] at he; simp at he; subst he; exact hn
    | some x => rw [hf] at he; simp at he; subst he; exact Q.inF v x hn hf
  | cls v =>
    replace hn : V2 v := hn
    simp only [Heap.evNext, Heap.nextLink, cell_next (Q.same v hn), Q.parentLink hn]
    refine ⟨trivial, ?_⟩
    intro e' he
    cases hf : c.next v with
    | none =>
      rw [hf] at he
      simp only [Option.map_eq_some_iff] at he
      obtain ⟨p, h1, rfl⟩ := he
      exact Q.parentLink_in hn h1
    | some x => rw [hf] at he; simp at he; subst he; exact Q.inN v x hn hf

theorem QI.dropStep (G : Good own dt N) (Z : Ctx V TV H0 b0) (hd : ∀ x, V x → ¬ V2 x) (hdt : ¬ TV t2)
    (hB : ∀ x ∈ e.busy, V x ∨ V2 x) (hD : Deaths e TV t2 H0) (ht2 : t2 ∈ e.dying) (k : Nat)
    {pc pu : List NodeId} (Q : QI own V V2 TV t2 H0 rest N H c r) (hn : V2 n) (hp : Pins V V2 pc pu)
    (hr : c.dropStep k pu n = .ok c') :
    ∃ H' r', H.dropStepC dt e k pc n = .ok H' ∧ QI own V V2 TV t2 H0 rest N H' c' r' ∧ Tr own V2 c c' r r' := by
  have rel := fun f {pc pu n H c c' r} Q => @QI.release α own V V2 TV t2 H0 rest N dt e b0 G Z hd hdt hB hD f pc pu n
    H c c' r Q (.inl ht2)
  unfold Heap.dropStep at hr
  unfold Heap.dropStepC
  rw [Q.parentLink hn]
  cases hpl : c.parentLink n with
  | none =>
    rw [hpl] at hr
    exact rel k Q hn hp hr
  | some p =>
    rw [hpl] at hr
    have hp2 := Q.parentLink_in hn hpl
    simp only [bind, Except.bind] at hr ⊢
    have Q1 : QI own V V2 TV t2 H0 rest N ((H.setNext n none).setFirst p (H.next n))
        ((c.setNext n none).setFirst p (c.next n)) r := by
      have hko : ∀ {k : Heap α} {v} x, ¬ V2 x → ((k.setNext n none).setFirst p v).cell x = k.cell x := by
        intro k v x hx
        have h1 : x ≠ p := fun e => hx (e ▸ hp2)
        have h2 : x ≠ n := fun e => hx (e ▸ hn)
        rw [setFirst_cell_ne h1, setNext_cell_ne h2]
      refine Q.change hd hdt (fun x => hko x) (fun _ _ => rfl) rfl rfl (fun x => hko x) (fun _ _ => rfl) rfl rfl
        ?_ Q.sameT ?_ ?_ Q.inP Q.inR Q.weak Q.stored
      · intro x hx
        rw [cell_next (Q.same n hn)]
        exact setFirst_cell (setNext_cell (Q.same x hx))
      · intro m y hm2
        simp only [Heap.setFirst, Heap.setNext, upd_apply]
        split
        · exact Q.inN n y hn
        · exact Q.inF m y hm2
      · intro m y hm2
        simp only [Heap.setFirst, Heap.setNext, upd_apply]
        split
        · intro e; cases e
        · exact Q.inN m y hm2
    have T1 : Tr own V2 c ((c.setNext n none).setFirst p (c.next n)) r r := .same fun x => rfl
    rw [cell_first (Q.same p hp2)]
    split at hr
    · cases hr
    rename_i c2 h2
    obtain ⟨H2, r2, e2, Q2, T2⟩ : ∃ H2 r2,
        (match c.firstChild p with
          | some x => ((H.setNext n none).setFirst p (H.next n)).releaseC dt e k (p :: n :: pc) x
          | none => .ok ((H.setNext n none).setFirst p (H.next n))) = .ok H2 ∧
        QI own V V2 TV t2 H0 rest N H2 c2 r2 ∧ Tr own V2 ((c.setNext n none).setFirst p (c.next n)) c2 r r2 := by
      cases hf : c.firstChild p with
      | none =>
        rw [hf] at h2
        simp only [Except.ok.injEq] at h2
        subst h2
        exact ⟨_, r, rfl, Q1, .refl⟩
      | some x =>
        rw [hf] at h2
        exact rel k Q1 (Q.inF p x hp2 hf) ((hp.cons hn).cons hp2) h2
    split at hr
    · cases hr
    rename_i c3 h3
    obtain ⟨H3, r3, e3, Q3, T3⟩ := rel k Q2 hp2 (hp.cons hn) h3
    obtain ⟨H4, r4, e4, Q4, T4⟩ := rel k Q3 hn hp hr
    refine ⟨H4, r4, ?_, Q4, ((T1.trans T2).trans T3).trans T4⟩
    cases hf : c.firstChild p <;> simp only [hf] at e2 ⊢
    · cases e2; simp only [e3]; exact e4
    · simp only [e2, e3]; exact e4

theorem QI.dropLoop (G : Good own dt N) (Z : Ctx V TV H0 b0) (hd : ∀ x, V x → ¬ V2 x) (hdt : ¬ TV t2)
    (hB : ∀ x ∈ e.busy, V x ∨ V2 x) (hD : Deaths e TV t2 H0) (ht2 : t2 ∈ e.dying) (k : Nat)
    {pc pu : List NodeId} (hp : Pins V V2 pc pu) :
    ∀ (f : Nat) {ev : Option (DftEvent NodeId)} {H c c' : Heap α} {r : World α},
    QI own V V2 TV t2 H0 rest N H c r → (∀ e', ev = some e' → V2 e'.value) →
    Heap.dropLoop k f pu ev c = .ok c' →
    ∃ H' r', Heap.dropLoopC dt e k f pc ev H = .ok H' ∧ QI own V V2 TV t2 H0 rest N H' c' r' ∧ Tr own V2 c c' r r'
  | f, none, H, c, c', r, Q, hv, hr => by
    have : c = c' := by cases f <;> simpa [Heap.dropLoop] using hr
    subst this
    exact ⟨H, r, by cases f <;> rfl, Q, .refl⟩
  | 0, some ev, H, c, c', r, Q, hv, hr => by simp [Heap.dropLoop] at hr
  | f + 1, some ev, H, c, c', r, Q, hv, hr => by
    obtain ⟨en, hin⟩ := Q.evNext (hv ev rfl)
    have hp' : Pins V V2 (match c.evNext ev with | some e => e.value :: pc | none => pc)
        (match c.evNext ev with | some e => e.value :: pu | none => pu) := by
      cases hx : c.evNext ev with
      | none => exact hp
      | some e' => exact hp.cons (hin e' hx)
    simp only [Heap.dropLoopC, en]
    cases ev with
    | opn v =>
      simp only [Heap.dropLoop] at hr
      split at hr
      · cases hr
      rename_i c1 h1
      obtain ⟨H1, r1, e1, Q1, T1⟩ := QI.release G Z hd hdt hB hD k Q (.inl ht2) (hv _ rfl) hp' h1
      obtain ⟨H2, r2, e2, Q2, T2⟩ := QI.dropLoop G Z hd hdt hB hD ht2 k hp f Q1 hin hr
      refine ⟨H2, r2, ?_, Q2, T1.trans T2⟩
      cases hx : c.evNext _ <;> simp only [hx, DftEvent.value] at e1 e2 ⊢ <;> simp only [e1] <;> exact e2
    | cls v =>
      simp only [Heap.dropLoop] at hr
      split at hr
      · cases hr
      rename_i c1 h1
      obtain ⟨H1, r1, e1, Q1, T1⟩ := QI.dropStep G Z hd hdt hB hD ht2 k Q (hv _ rfl) hp' h1
      obtain ⟨H2, r2, e2, Q2, T2⟩ := QI.dropLoop G Z hd hdt hB hD ht2 k hp f Q1 hin hr
      refine ⟨H2, r2, ?_, Q2, T1.trans T2⟩
      cases hx : c.evNext _ <;> simp only [hx, DftEvent.value] at e1 e2 ⊢ <;> simp only [e1] <;> exact e2

theorem QI.dropTree (G : Good own dt N) (Z : Ctx V TV H0 b0) (hd : ∀ x, V x → ¬ V2 x) (hdt : ¬ TV t2)
    (hB : ∀ x ∈ e.busy, V x ∨ V2 x) (hD : Deaths e TV t2 H0)
    {pc pu : List NodeId} (Q : QI own V V2 TV t2 H0 rest N H c r) (hp : Pins V V2 pc pu)
    (hr : c.dropTree pu t2 = .ok c') :
    ∃ H' r', H.dropTreeC dt e pc t2 = .ok H' ∧ QI own V V2 TV t2 H0 rest N H' c' r' ∧ Tr own V2 c c' r r' := by
  have hD' : Deaths { e with dying := t2 :: e.dying } TV t2 H0 := by
    refine ⟨?_, ?_⟩
    · intro t ht
      rcases List.mem_cons.1 ht with rfl | ht
      · exact .inr rfl
      · exact hD.dying t ht
    · intro t ht
      rcases hD.gone t ht with h | h
      · exact .inl (List.mem_cons_of_mem _ h)
      · exact .inr h
  have ht2 : t2 ∈ ({ e with dying := t2 :: e.dying } : Nest).dying := List.mem_cons_self
  unfold Heap.dropTree Heap.dropTreeWith at hr
  unfold Heap.dropTreeC
  rw [tcell_root Q.sameT]
  cases hrt : c.root t2 with
  | none =>
    rw [hrt] at hr
    obtain rfl : c = c' := by simpa using hr
    exact ⟨H, r, rfl, Q, .refl⟩
  | some x =>
    rw [hrt] at hr
    have hx := Q.inR x hrt
    have e1 : H.relFuel = c.relFuel := by simp [Heap.relFuel, Q.nNode]
    have e2 : H.dropFuel = c.dropFuel := by simp [Heap.dropFuel, Q.nNode]
    simp only [e1, e2] at hr ⊢
    split at hr
    · cases hr
    rename_i c1 h1
    obtain ⟨H1, r1, e3, Q1, T1⟩ := QI.dropLoop (e := { e with dying := t2 :: e.dying }) G Z hd hdt hB hD' ht2 _ hp _ Q
      (by rintro _ ⟨⟩; exact hx) h1
    simp only [e3]
    have Q2 : QI own V V2 TV t2 H0 rest N ((H1.setRoot t2 none).setGrants t2 0)
        ((c1.setRoot t2 none).setGrants t2 0) r1 := by
      refine Q1.change hd hdt (fun _ _ => rfl) ?_ rfl rfl (fun _ _ => rfl) ?_ rfl rfl Q1.same ?_ Q1.inF Q1.inN
        Q1.inP ?_ Q1.weak Q1.stored
      · intro t ht; simp [Heap.tcell, Heap.setRoot, Heap.setGrants, ht]
      · intro t ht; simp [Heap.tcell, Heap.setRoot, Heap.setGrants, ht]
      · have := (tcell_iff.1 Q1.sameT).2.2
        simp [Heap.tcell, Heap.setRoot, Heap.setGrants, this]
      · intro y; simp [Heap.setRoot, Heap.setGrants]
    obtain ⟨H3, r3, e4, Q3, T3⟩ := QI.release (e := { e with dying := t2 :: e.dying }) G Z hd hdt hB hD' _ Q2 (.inl ht2) hx hp hr
    exact ⟨H3, r3, e4, Q3, T1.trans ((Tr.same (c := c1) (c' := (c1.setRoot t2 none).setGrants t2 0) fun _ => rfl).trans T3)⟩

end
end Dendron
