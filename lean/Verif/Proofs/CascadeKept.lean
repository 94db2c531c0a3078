import Verif.Proofs.CascadeFacts
import Verif.Proofs.ReadAny

/-! Calls that destroy nothing run no destructor. -/

set_option linter.unusedSimpArgs false
set_option linter.unusedVariables false
set_option autoImplicit false

namespace Dendron
variable {α : Type} {h h' h1 h2 g g' : Heap α} {n x p : NodeId} {t u : TreeId} {c : Nest} {dt : Dtor α}
  {pins pins' : List NodeId} {f : Nat}

/-- Everything that is there is still there. -/
structure Lives (h h' : Heap α) : Prop where
  node : ∀ x, h.alive x = true → h'.alive x = true
  tree : ∀ t, h.treeAlive t = true → h'.treeAlive t = true

theorem Lives.pre (L : Lives h h') (a : ∀ x, g.alive x = h.alive x) (b : ∀ t, g.treeAlive t = h.treeAlive t) : Lives g h' :=
  ⟨fun x hx => L.node x (by rw [← a]; exact hx), fun t ht => L.tree t (by rw [← b]; exact ht)⟩

theorem release_kept (e : h.release f pins n = .ok h') (L : Lives h h') :
    h' = h ∧ h.releaseC dt c f pins n = .ok h := by
  cases f with
  | zero => cases e
  | succ f =>
    by_cases hc : (!h.alive n || pins.contains n || h.referenced n) = true
    · unfold Heap.release at e
      unfold Heap.releaseC
      rw [if_pos hc] at e ⊢
      cases e; exact ⟨rfl, rfl⟩
    · exfalso
      simp only [Bool.or_eq_true, not_or, Bool.not_eq_true', Bool.not_eq_true, Bool.not_eq_false] at hc
      have := L.node n hc.1.1
      have h1 := release_gone (f := f + 1) (by
        intro hp; have := hc.1.2; rw [List.contains_iff_mem.2 hp] at this; cases this) hc.2 e
      rw [h1] at this; cases this

theorem maybeDropTree_kept (e : h.maybeDropTree pins t = .ok h') (L : Lives h h') :
    h' = h ∧ h.maybeDropTreeC dt c pins' t = .ok h := by
  unfold Heap.maybeDropTree at e
  unfold Heap.maybeDropTreeC
  split at e
  · rename_i hc
    exfalso
    simp only [Bool.and_eq_true] at hc
    have hta := L.tree t hc.1.1
    unfold Heap.dropTree Heap.dropTreeWith at e
    split at e
    · rename_i hr; simp [Heap.treeAlive, hr] at hc
    · split at e
      · cases e
      · have := release_root e
        rw [Heap.treeAlive, this] at hta
        simp [Heap.setRoot, Heap.setGrants] at hta
  · rename_i hc
    rw [if_neg hc]
    cases e; exact ⟨rfl, rfl⟩

theorem relTree_kept (e : h.relTree pins t = .ok h') (L : Lives h h') :
    h.relTreeC dt c t = .ok h' := by
  unfold Heap.relTree at e
  unfold Heap.relTreeC
  obtain ⟨rfl, h2⟩ := maybeDropTree_kept (dt := dt) (c := c) (pins' := c.pins) e (L.pre (fun _ => rfl) (fun _ => rfl))
  exact h2

theorem transferLock_lives {o : Option (Heap α)} {l : Nat} (e : (if l ≠ 0 then h.transferLock t u else .ok (some h)) = .ok o) :
    ∀ h1, o = some h1 → (∀ x, h1.alive x = h.alive x) ∧ (∀ t, h1.treeAlive t = h.treeAlive t) := by
  rintro h1 rfl
  split at e
  · unfold Heap.transferLock at e
    split at e
    · split at e <;> first | cases e | skip
      exact ⟨fun _ => rfl, fun _ => rfl⟩
    · split at e
      · cases e; exact ⟨fun _ => rfl, fun _ => rfl⟩
      · split at e <;> first | cases e | skip
        exact ⟨fun _ => rfl, fun _ => rfl⟩
  · cases e; exact ⟨fun _ => rfl, fun _ => rfl⟩

theorem setTreeCore_rf (e : h.setTreeCore pins n t = .ok (some h')) :
    (∀ x, h'.alive x = true → h.alive x = true) ∧ (∀ t, h'.treeAlive t = true → h.treeAlive t = true) := by
  unfold Heap.setTreeCore at e
  split at e
  · cases e; exact ⟨fun _ h => h, fun _ h => h⟩
  · split at e
    · cases e
    · cases e
    · rename_i h1 e1
      simp only at e
      split at e
      · cases e
      · rename_i h3 e3
        cases e
        obtain ⟨a1, a2⟩ := transferLock_lives e1 _ rfl
        have F : ∀ m u, (h1.setMem n m).maybeDropTree pins u = .ok h' → RF (h1.setMem n m) h' := by
          intro m u e3
          rcases maybeDropTree_rf e3 with rfl | ⟨F, -⟩
          · exact .refl _
          · exact F
        refine ⟨fun x hx => ?_, fun u hu => ?_⟩
        · rw [← a1]; exact (F _ _ e3).alive hx
        · rw [← a2]; exact (F _ _ e3).tree u hu

theorem setTreeCore_kept (hb : n ∉ c.busy) (e : h.setTreeCore pins n t = .ok (some h')) (L : Lives h h') :
    h.setTreeCoreC dt c pins' n t = .ok (some h') := by
  unfold Heap.setTreeCore at e
  unfold Heap.setTreeCoreC
  rw [if_neg (by simpa using hb)]
  split at e
  · rename_i hm; rw [hm]; simp only; exact e
  · rename_i hm
    rw [hm]
    simp only
    split at e
    · cases e
    · cases e
    · rename_i h1 e1
      rw [e1]
      simp only at e ⊢
      split at e
      · cases e
      · rename_i h3 e3
        cases e
        obtain ⟨a1, a2⟩ := transferLock_lives e1 _ rfl
        obtain ⟨rfl, h4⟩ := maybeDropTree_kept (dt := dt) (c := { c with busy := n :: c.busy }) (pins' := pins') e3
          (L.pre (fun x => a1 x) (fun u => a2 u))
        rw [h4]

theorem setMembLoop_rf {start : NodeId} : ∀ {f : Nat} {ev : Option (DftEvent NodeId)} {h h' : Heap α},
    h.setMembLoop f start t ev = .ok (some h') →
    (∀ x, h'.alive x = true → h.alive x = true) ∧ (∀ t, h'.treeAlive t = true → h.treeAlive t = true)
  | f, none, h, h', e => by cases f <;> (cases e; exact ⟨fun _ h => h, fun _ h => h⟩)
  | 0, some _, _, _, e => by cases e
  | f + 1, some ev, h, h', e => by
    unfold Heap.setMembLoop at e
    split at e
    · cases e; exact ⟨fun _ h => h, fun _ h => h⟩
    · simp only at e
      split at e
      · split at e
        · cases e
        · cases e
        · rename_i h1 e1
          split at e
          · cases e
          · rename_i h2 e2
            have a := setTreeCore_rf e1
            have b := release_rf e2
            have c := setMembLoop_rf e
            exact ⟨fun x hx => a.1 x (b.alive (c.1 x hx)), fun u hu => a.2 u (b.tree u (c.2 u hu))⟩
      · split at e
        · cases e
        · rename_i h2 e2
          have b := release_rf e2
          have c := setMembLoop_rf e
          exact ⟨fun x hx => b.alive (c.1 x hx), fun u hu => b.tree u (c.2 u hu)⟩

theorem setMembLoop_kept {start : NodeId} : ∀ {f : Nat} {ev : Option (DftEvent NodeId)} {h h' : Heap α},
    h.setMembLoop f start t ev = .ok (some h') → Lives h h' →
    h.setMembLoopC dt Nest.start f start t ev = .ok (some h')
  | f, none, h, h', e, _ => by cases f <;> (cases e; rfl)
  | 0, some _, _, _, e, _ => by cases e
  | f + 1, some ev, h, h', e, L => by
    unfold Heap.setMembLoop at e
    unfold Heap.setMembLoopC
    split at e
    · rename_i hc; rw [if_pos hc]; exact e
    · rename_i hc
      rw [if_neg hc]
      simp only at e ⊢
      split at e
      · split at e
        · cases e
        · cases e
        · rename_i h1 e1
          split at e
          · cases e
          · rename_i h2 e2
            have b := release_rf e2
            have d := setMembLoop_rf e
            have L1 : Lives h h1 := ⟨fun x hx => b.alive (d.1 x (L.node x hx)), fun u hu => b.tree u (d.2 u (L.tree u hu))⟩
            have a := setTreeCore_rf e1
            have L2 : Lives h1 h2 := ⟨fun x hx => d.1 x (L.node x (a.1 x hx)), fun u hu => d.2 u (L.tree u (a.2 u hu))⟩
            have L3 : Lives h2 h' := ⟨fun x hx => L.node x (a.1 x (b.alive hx)), fun u hu => L.tree u (a.2 u (b.tree u hu))⟩
            obtain ⟨rfl, k2⟩ := release_kept (dt := dt) (c := Nest.start) e2 L2
            have k1 := fun q => setTreeCore_kept (dt := dt) (c := Nest.start) (pins' := q) (by simp [Nest.start]) e1 L1
            have k3 := setMembLoop_kept e L3
            simp only [k1]
            rw [show (Nest.start).pins = [] from rfl]
            cases hev : h.evNext (.opn _) <;> simp only [hev, List.append_nil] at k2 k3 ⊢ <;> (rw [k2]; exact k3)
      · split at e
        · cases e
        · rename_i h2 e2
          have b := release_rf e2
          have d := setMembLoop_rf e
          have L2 : Lives h h2 := ⟨fun x hx => d.1 x (L.node x hx), fun u hu => d.2 u (L.tree u hu)⟩
          have L3 : Lives h2 h' := ⟨fun x hx => L.node x (b.alive hx), fun u hu => L.tree u (b.tree u hu)⟩
          obtain ⟨rfl, k2⟩ := release_kept (dt := dt) (c := Nest.start) e2 L2
          have k3 := setMembLoop_kept e L3
          rw [show (Nest.start).pins = [] from rfl]
          cases hev : h2.evNext (.cls _) <;> simp only [hev, List.append_nil] at k2 k3 ⊢ <;> (rw [k2]; exact k3)

/-! ### Linking -/

/-- Nothing is there that was not there before. -/
structure Sub (h0 h : Heap α) : Prop where
  node : ∀ x, h.alive x = true → h0.alive x = true
  tree : ∀ t, h.treeAlive t = true → h0.treeAlive t = true
  nTree : h.nTree = h0.nTree
  memb : ∀ x, h.alive x = true → h.memTree x = h0.memTree x

section
variable {h0 : Heap α} {β γ : Type}

theorem Sub.refl (h : Heap α) : Sub h h := ⟨fun _ h => h, fun _ h => h, rfl, fun _ _ => rfl⟩
theorem Sub.of_eq (K : Sub h0 h) (e1 : h'.data = h.data) (e2 : h'.root = h.root) (e3 : h'.nTree = h.nTree)
    (e4 : h'.mem = h.mem) : Sub h0 h' :=
  ⟨fun x hx => K.node x (by rw [Heap.alive, ← e1]; exact hx), fun t ht => K.tree t (by rw [Heap.treeAlive, ← e2]; exact ht),
    e3.trans K.nTree, fun x hx => by
      rw [← K.memb x (by rw [Heap.alive, ← e1]; exact hx)]; simp [Heap.memTree, e4]⟩
theorem Sub.setNext {m : NodeId} {v : Option NodeId} (K : Sub h0 h) : Sub h0 (h.setNext m v) := K.of_eq rfl rfl rfl rfl
theorem Sub.setFirst {m : NodeId} {v : Option NodeId} (K : Sub h0 h) : Sub h0 (h.setFirst m v) := K.of_eq rfl rfl rfl rfl
theorem Sub.setParent {m : NodeId} {v : Option NodeId} (K : Sub h0 h) : Sub h0 (h.setParent m v) := K.of_eq rfl rfl rfl rfl
theorem Sub.setPrev {m : NodeId} {v : Option NodeId} (K : Sub h0 h) : Sub h0 (h.setPrev m v) := K.of_eq rfl rfl rfl rfl
theorem Sub.setNum {m : NodeId} {v : Nat} (K : Sub h0 h) : Sub h0 (h.setNum m v) := K.of_eq rfl rfl rfl rfl
theorem Sub.numAdd {m : NodeId} {v : Nat} (K : Sub h0 h) : Sub h0 (h.numAdd m v) := K.of_eq rfl rfl rfl rfl

/-- If the computation returns, the memory in its result has nothing more. -/
def Sb (h0 : Heap α) (π : β → Heap α) (r : Except Fault β) : Prop := ∀ b, r = .ok b → Sub h0 (π b)

theorem Sb.err {π : β → Heap α} {e : Fault} : Sb h0 π (.error e) := fun _ h => by cases h
theorem Sb.ok {π : β → Heap α} {b : β} (K : Sub h0 (π b)) : Sb h0 π (.ok b) := fun _ h => by cases h; exact K
theorem Sb.pure {π : β → Heap α} {b : β} (K : Sub h0 (π b)) : Sb h0 π (Pure.pure b) := Sb.ok K
theorem Sb.bindA {π : γ → Heap α} {x : Except Fault β} {f : β → Except Fault γ}
    (k : ∀ b, x = .ok b → Sb h0 π (f b)) : Sb h0 π (x >>= f) := by
  cases x with
  | error e => exact Sb.err
  | ok b => exact k b rfl
theorem Sb.bindH {π : γ → Heap α} {x : Except Fault (Heap α)} {f : Heap α → Except Fault γ}
    (K : Sb h0 id x) (k : ∀ h, Sub h0 h → Sb h0 π (f h)) : Sb h0 π (x >>= f) :=
  .bindA fun b e => k b (K b e)
theorem Sb.bindP {π : γ → Heap α} {x : Except Fault (Heap α × β)} {f : Heap α × β → Except Fault γ}
    (K : Sb h0 Prod.fst x) (k : ∀ h b, Sub h0 h → Sb h0 π (f (h, b))) : Sb h0 π (x >>= f) :=
  .bindA fun b e => k b.1 b.2 (K b e)

theorem Sub.release {f : Nat} {pins : List NodeId} (K : Sub h0 h) : Sb h0 id (h.release f pins n) := by
  intro g e
  have F := release_rf e
  exact ⟨fun x hx => K.node x (F.alive hx), fun t ht => K.tree t (F.tree t ht), F.nTree.trans K.nTree,
    fun x hx => (F.node x hx).2.trans (K.memb x (F.alive hx))⟩

theorem Sub.dropLocal {held : List NodeId} (K : Sub h0 h) : Sb h0 id (h.dropLocal held n) := K.release

theorem Sub.dropOpt {held : List NodeId} {o : Option NodeId} (K : Sub h0 h) : Sb h0 id (h.dropOpt held o) := by
  cases o
  · exact Sb.ok K
  · exact K.release

theorem Sub.putNext {held : List NodeId} {m : NodeId} {v : Option NodeId} (K : Sub h0 h) :
    Sb h0 id (h.putNext held m v) := K.setNext.dropOpt

theorem Sub.putFirst {held : List NodeId} {m : NodeId} {v : Option NodeId} (K : Sub h0 h) :
    Sb h0 id (h.putFirst held m v) := K.setFirst.dropOpt

theorem Sub.connect {held : List NodeId} {a b : NodeId} (K : Sub h0 h) :
    Sb h0 id (h.connect held a b) := K.setPrev.putNext

theorem Sub.numSub {m : NodeId} {v : Nat} (K : Sub h0 h) : Sb h0 id (h.numSub m v) := by
  unfold Heap.numSub
  split
  · exact Sb.err
  · exact Sb.ok K.setNum

theorem Sub.newByUnlink {held : List NodeId} (K : Sub h0 h) : Sb h0 Prod.fst (h.newByUnlink held n) := by
  unfold Heap.newByUnlink
  split
  · exact Sb.ok K
  refine Sb.bindA fun prev _ => Sb.bindA fun prevC _ => Sb.bindH ?_ fun h K => Sb.bindH ?_ fun h K =>
    Sb.bindH ?_ fun h K => Sb.bindH K.setParent.setPrev.putNext fun h K => Sb.bindH K.dropLocal fun h K =>
      Sb.bindH K.dropOpt fun h K => Sb.pure K
  · split
    · refine Sb.bindA fun first _ => Sb.bindH ?_ fun h K => ?_
      · split
        · exact K.putFirst
        · exact Sb.ok K
      · split
        · exact Sb.err
        · exact K.numSub
    · exact Sb.ok K
  · split
    · exact Sb.bindH K.putNext fun h K => K.dropLocal
    · exact Sb.ok K
  · split
    · exact K.setPrev.dropLocal
    · exact Sb.ok K

theorem Sub.insertFirst {held : List NodeId} {b : Bool} (K : Sub h0 h) :
    Sb h0 Prod.fst (h.insertFirst held n b p) := by
  unfold Heap.insertFirst
  refine Sb.bindA fun c _ => ?_
  split
  · exact Sb.pure K
  refine Sb.bindA fun fl _ => Sb.bindH ?_ fun h K => Sb.bindH K.setParent.putFirst fun h K => Sb.pure K.numAdd
  split
  · exact Sb.bindH K.setPrev.connect fun h K => K.dropLocal
  · exact Sb.ok K.setPrev

theorem Sub.insertLast {held : List NodeId} {b : Bool} (K : Sub h0 h) :
    Sb h0 Prod.fst (h.insertLast held n b p) := by
  unfold Heap.insertLast
  refine Sb.bindA fun c _ => ?_
  split
  · exact Sb.pure K
  refine Sb.bindA fun fl _ => Sb.bindH ?_ fun h K => Sb.pure K.setParent.numAdd
  split
  · exact Sb.bindH K.setPrev.connect fun h K => Sb.bindH K.dropLocal fun h K => K.dropLocal
  · exact K.setPrev.putFirst

theorem Sub.insertBetween {held : List NodeId} {a b : NodeId} (K : Sub h0 h) :
    Sb h0 id (h.insertBetween held n p a b) := by
  unfold Heap.insertBetween
  exact Sb.bindA fun _ _ => Sb.bindH K.setParent.setNext.putNext fun h K => Sb.pure K.setPrev.setPrev.numAdd

theorem Sub.insert {held : List NodeId} {b : Bool} {dest : InsertAs NodeId} (K : Sub h0 h) :
    Sb h0 Prod.fst (h.insert held n b dest) := by
  cases dest with
  | firstChildOf q => exact K.insertFirst
  | lastChildOf q => exact K.insertLast
  | previousSiblingOf a =>
    simp only [Heap.insert]
    split
    · exact Sb.ok K
    refine Sb.bindA fun s _ => ?_
    split
    · exact Sb.bindH K.insertBetween fun h K => Sb.bindH K.dropLocal fun h K => Sb.bindH K.dropLocal fun h K => Sb.pure K
    · exact Sb.bindP K.insertFirst fun h r K => Sb.bindH K.dropLocal fun h K => Sb.pure K
  | nextSiblingOf a =>
    simp only [Heap.insert]
    split
    · exact Sb.ok K
    split
    · exact Sb.bindH K.insertBetween fun h K => Sb.bindH K.dropLocal fun h K => Sb.bindH K.dropLocal fun h K => Sb.pure K
    · exact Sb.bindP K.insertLast fun h r K => Sb.bindH K.dropLocal fun h K => Sb.pure K

end

/-! ### Edits -/

theorem relTree_rf (e : h.relTree pins t = .ok h') : Sub h h' := by
  unfold Heap.relTree at e
  rcases maybeDropTree_rf e with rfl | ⟨F, -⟩
  · exact .of_eq (.refl _) rfl rfl rfl rfl
  · exact ⟨fun x hx => F.alive hx, fun t ht => F.tree t ht, F.nTree, fun x hx => (F.node x hx).2⟩

theorem detachSubtree_kept (e : h.detachSubtree n = .ok h') (L : Lives h h')
    (hn : h.isRoot n = false → h'.treeAlive h.nTree = true) :
    h.detachSubtreeC dt Nest.start n = .ok h' := by
  unfold Heap.detachSubtree at e
  unfold Heap.detachSubtreeC
  split at e
  · rename_i hc; rw [if_pos hc]; exact e
  · rename_i hc
    rw [if_neg hc]
    simp only [bind, Except.bind] at e ⊢
    split at e
    · cases e
    rename_i v hu
    obtain ⟨h1, b⟩ := v
    have K := (Sub.refl h).newByUnlink _ hu
    have hT : h1.nTree = h.nTree := K.nTree
    simp only at e ⊢
    unfold Heap.createNewTree Heap.setMemberships at e
    unfold Heap.createNewTreeC
    simp only at e ⊢
    split at e
    · cases e
    · cases e
    · rename_i h2 e2
      have R := relTree_rf e
      have hd := setMembLoop_rf e2
      have lv : ∀ u, (h1.allocTree n).1.treeAlive u = true → h'.treeAlive u = true := by
        intro u hu
        by_cases eu : u = h1.nTree
        · subst eu; rw [hT]; exact hn (by simpa using hc)
        · refine L.tree u (K.tree u ?_)
          simpa [Heap.treeAlive, Heap.allocTree, eu] using hu
      have L2 : Lives (h1.allocTree n).1 h2 :=
        ⟨fun x hx => R.node x (L.node x (K.node x hx)), fun u hu => R.tree u (lv u hu)⟩
      have L3 : Lives h2 h' := ⟨fun x hx => L.node x (K.node x (hd.1 x hx)), fun u hu => lv u (hd.2 u hu)⟩
      have k2 := setMembLoop_kept (dt := dt) e2 L2
      have k3 := relTree_kept (dt := dt) (c := Nest.start) e L3
      simp only [k2, k3]

theorem detachInsert_kept {dest : InsertAs NodeId} {o : Except HierarchyError Unit}
    (e : h.detachInsert n dest = .ok (h', o)) (L : Lives h h') :
    h.detachInsertC dt Nest.start n dest = .ok (h', o) := by
  unfold Heap.detachInsert at e
  unfold Heap.detachInsertC
  split at e
  · rename_i hc; rw [if_pos hc]; exact e
  · rename_i hc
    rw [if_neg hc]
    simp only [bind, Except.bind, pure, Except.pure] at e ⊢
    split at e
    · cases e
    rename_i t ht
    split at e
    · cases e
    rename_i v e1
    obtain ⟨g2, o'⟩ := v
    simp only at e
    split at e
    · cases e
    rename_i g3 e3
    cases e
    have R3 := relTree_rf e3
    unfold Heap.moveOther at e1
    unfold Heap.moveOtherC
    simp only [bind, Except.bind, pure, Except.pure] at e1 ⊢
    split at e1
    · cases e1
    rename_i v hu
    obtain ⟨h1, b⟩ := v
    have K := (Sub.refl (h.acqTree t)).newByUnlink _ hu
    simp only at e1 ⊢
    unfold Heap.setMemberships at e1
    split at e1
    · cases e1
    rename_i v e2
    cases v with
    | none => cases e1
    | some h2 =>
      simp only at e1
      have I := (Sub.refl h2).insert _ e1
      have hd := setMembLoop_rf e2
      have lv : ∀ x, h1.alive x = true → h'.alive x = true := fun x hx => L.node x (K.node x hx)
      have lt : ∀ x, h1.treeAlive x = true → h'.treeAlive x = true := fun x hx => L.tree x (K.tree x hx)
      have L2 : Lives h1 h2 :=
        ⟨fun x hx => I.node x (R3.node x (lv x hx)), fun u hu => I.tree u (R3.tree u (lt u hu))⟩
      have L3 : Lives g2 h' := ⟨fun x hx => lv x (hd.1 x (I.node x hx)), fun u hu => lt u (hd.2 u (I.tree u hu))⟩
      have k2 := setMembLoop_kept (dt := dt) e2 L2
      have k3 := relTree_kept (dt := dt) (c := Nest.start) e3 L3
      simp only [k2, e1, k3]

end Dendron
