import Verif.Proofs.WideTree
import Verif.Proofs.Local
import Verif.Proofs.WTraverseEval
import Verif.Proofs.ReadAny

/-! Code that uses handles properly, in the wider histories: it behaves on the program state as on the memory, where
it does not depend on a wrong `last_child`. -/

set_option linter.unusedSimpArgs false
set_option linter.unusedVariables false
set_option autoImplicit false

namespace Dendron
variable {α β γ : Type} {w w' : World α} {a a' a'' : Forest α} {n m : NodeId} {k : Kind} {q : Nav} {o : Option NodeId}
  {t : TreeId}

/-! ### What is left when handles are dropped -/

/-- Some trees have vanished, the rest is as before. -/
structure Forest.Thin (a a' : Forest α) : Prop where
  data : ∀ n, a'.tree n ≠ none → a'.data n = a.data n
  borrowed : ∀ n, a'.tree n ≠ none → a'.borrowed n = a.borrowed n
  children : ∀ n, a'.tree n ≠ none → a'.children n = a.children n
  tree : ∀ n, a'.tree n ≠ none → a'.tree n = a.tree n
  root : ∀ n t, a'.tree n = some t → a'.root t = a.root t
  whole : ∀ n m, a.tree n = a.tree m → a'.tree n ≠ none → a'.tree m ≠ none
  newNode : a'.newNode = a.newNode
  newTree : a'.newTree = a.newTree

theorem Forest.Thin.refl (a : Forest α) : a.Thin a :=
  ⟨fun _ _ => rfl, fun _ _ => rfl, fun _ _ => rfl, fun _ _ => rfl, fun _ _ _ => rfl,
    fun n m h1 h2 => h1 ▸ h2, rfl, rfl⟩

theorem Forest.Thin.trans (h1 : a.Thin a') (h2 : a'.Thin a'') : a.Thin a'' := by
  have key : ∀ n, a''.tree n ≠ none → a'.tree n ≠ none := fun n h => by rw [← h2.tree n h]; exact h
  refine ⟨fun n h => ?_, fun n h => ?_, fun n h => ?_, fun n h => ?_, fun n t h => ?_, fun n m h3 h4 => ?_,
    h2.newNode.trans h1.newNode, h2.newTree.trans h1.newTree⟩
  · rw [h2.data n h, h1.data n (key n h)]
  · rw [h2.borrowed n h, h1.borrowed n (key n h)]
  · rw [h2.children n h, h1.children n (key n h)]
  · rw [h2.tree n h, h1.tree n (key n h)]
  · have hn : a''.tree n ≠ none := by rw [h]; simp
    rw [h2.root n t h, h1.root n t (by rw [← h2.tree n hn]; exact h)]
  · have h5 := key n h4
    have h6 := h1.whole n m h3 h5
    exact h2.whole n m (by rw [h1.tree n h5, h1.tree m h6, h3]) h4

theorem Forest.Same.thin (h : a.Same a') : a.Thin a' :=
  ⟨fun n _ => by rw [h.data], fun n _ => by rw [h.borrowed], fun n _ => by rw [h.children], fun n _ => by rw [h.tree],
    fun _ t _ => by rw [h.root], fun n m h1 h2 => by rw [h.tree] at h2 ⊢; rw [← h1]; exact h2, h.newNode, h.newTree⟩

theorem Forest.thin_sweep (a : Forest α) : a.Thin a.sweep := by
  have key : ∀ n, a.sweep.tree n ≠ none → ∃ t, a.tree n = some t ∧ a.Holds t := by
    intro n h
    apply Classical.byContradiction
    intro h1
    exact h (by simp only [Forest.sweep, if_neg h1])
  refine ⟨fun n h => ?_, fun n h => ?_, fun n h => ?_, fun n h => ?_, fun n t h => ?_, fun n m h1 h2 => ?_, rfl, rfl⟩
  · simp only [Forest.sweep, if_pos (key n h)]
  · simp only [Forest.sweep, if_pos (key n h)]
  · simp only [Forest.sweep, if_pos (key n h)]
  · simp only [Forest.sweep, if_pos (key n h)]
  · have hn : a.sweep.tree n ≠ none := by rw [h]; simp
    obtain ⟨t', e, g⟩ := key n hn
    simp only [Forest.sweep, if_pos (key n hn)] at h
    rw [e] at h; cases h
    simp only [Forest.sweep, if_pos g]
  · obtain ⟨t', e, g⟩ := key n h2
    have hm : ∃ t, a.tree m = some t ∧ a.Holds t := ⟨t', by rw [← h1]; exact e, g⟩
    simp only [Forest.sweep, if_pos hm]
    rw [← h1, e]; simp

/-- What is left is found as before. -/
theorem Forest.Thin.finds (h : a.Thin a') (T : a.Tidy) (T' : a'.Tidy) (hn : a'.tree n ≠ none) (hf : a.Finds n o q) :
    a'.Finds n o q := by
  have up : ∀ {p}, n ∈ a.children p → a'.tree p ≠ none := fun hp => h.whole n _ (T.mem hp).symm hn
  have top : a.IsTop n → a'.IsTop n := by
    intro ht p hp
    have : a'.tree p ≠ none := by rw [T'.mem hp]; exact hn
    rw [h.children p this] at hp
    exact ht p hp
  have split : ∀ {p l1 l2}, a.children p = l1 ++ n :: l2 → a'.children p = l1 ++ n :: l2 := by
    intro p l1 l2 e
    rw [h.children p (up (by rw [e]; simp))]; exact e
  have memb : ∀ {p}, n ∈ a.children p → a'.children p = a.children p := fun hp => h.children _ (up hp)
  cases q with
  | root =>
    obtain ⟨t, e, rfl⟩ := hf
    have e' : a'.tree n = some t := by rw [h.tree n hn]; exact e
    exact ⟨t, e', (h.root n t e').symm⟩
  | parent =>
    rcases hf with ⟨p, hp, rfl⟩ | ⟨ht, rfl⟩
    · exact .inl ⟨p, by rw [memb hp]; exact hp, rfl⟩
    · exact .inr ⟨top ht, rfl⟩
  | prevSibling =>
    rcases hf with ⟨p, l1, l2, e, rfl⟩ | ⟨ht, rfl⟩
    · exact .inl ⟨p, l1, l2, split e, rfl⟩
    · exact .inr ⟨top ht, rfl⟩
  | nextSibling =>
    rcases hf with ⟨p, l1, l2, e, rfl⟩ | ⟨ht, rfl⟩
    · exact .inl ⟨p, l1, l2, split e, rfl⟩
    · exact .inr ⟨top ht, rfl⟩
  | firstSibling =>
    rcases hf with ⟨p, hp, rfl⟩ | ⟨ht, rfl⟩
    · exact .inl ⟨p, by rw [memb hp]; exact hp, by rw [memb hp]⟩
    · exact .inr ⟨top ht, rfl⟩
  | lastSibling =>
    rcases hf with ⟨p, hp, rfl⟩ | ⟨ht, rfl⟩
    · exact .inl ⟨p, by rw [memb hp]; exact hp, by rw [memb hp]⟩
    · exact .inr ⟨top ht, rfl⟩
  | firstChild => 
    show o = _
    rw [h.children n hn]; exact hf
  | lastChild =>
    show o = _
    rw [h.children n hn]; exact hf

/-! ### Navigation -/

/-- A navigation method that does not depend on a wrong `last_child` finds what it should, a node of the same tree. -/
theorem ReachW.finds (hr : ReachW w) (S : Shows w a) (hn : a.data n ≠ none)
    (hq : ∀ p, UsesLast a.children (.nav k q n : Op α) p → LastRight w.heap a.children p) :
    ∃ o, w.heap.navTo n q = .ok o ∧ a.Finds n o q ∧ ∀ m, o = some m → a.tree m = a.tree n := by
  obtain ⟨v, ch, W⟩ := hr.wide
  have S1 : Shows v a := S.simW W.sim
  obtain rfl := S1.children.unique W.inv.wf.toFShape
  have ha := S.alive.2 hn
  have hv : v.heap.alive n = true := by rw [W.sim.heap.alive]; exact ha
  obtain ⟨o, e, h1⟩ := W.inv.wf.navTo hv q
  refine ⟨o, by rw [W.navTo (kd := k) ha hq]; exact e, ?_, ?_⟩
  · have := W.inv.finds hv e
    rw [W.inv.view.unique S1] at this; exact this
  · intro m hm
    obtain ⟨h2, h3⟩ := h1 m hm
    rw [S1.tree_of h2, S1.tree_of hv, h3]

theorem ReachW.navTo_unique (hr : ReachW w) (S : Shows w a) (hn : a.data n ≠ none)
    (hq : ∀ p, UsesLast a.children (.nav k q n : Op α) p → LastRight w.heap a.children p) (hf : a.Finds n o q) :
    w.heap.navTo n q = .ok o := by
  obtain ⟨o', e, h1, -⟩ := hr.finds S hn hq
  rw [e, (hr.tidy S).lists.finds h1 hf]

theorem ReadsAny.trans {w'' : World α} (a : ReadsAny w w') (b : ReadsAny w' w'') : ReadsAny w w'' := by
  induction b with
  | refl => exact a
  | step _ hop s ih => exact .step ih hop s

/-! ### Using handles properly -/

/-- What code that only reads does. -/
structure DoesW (w : World α) (a : Forest α) (w' : World α) (a' : Forest α) (x y : Handles) : Prop where
  reads : ReadsAny w w'
  reach : ReachW w'
  shows : Shows w' a'
  roomy : a'.Roomy
  thin : a.Thin a'
  calms : Calms w w'
  exch : Exchange w w' x y

theorem Forest.Thin.alive (h : a.Thin a') (T : a.Tidy) (T' : a'.Tidy) (S : Shows w a) (S' : Shows w' a')
    (hn : w'.heap.alive n = true) : w.heap.alive n = true := by
  have h1 := S'.alive.1 hn
  have h2 : a'.tree n ≠ none := fun e => h1 ((T'.dead n).2 e)
  rw [S.alive, ← h.data n h2]; exact h1

theorem DoesW.trans {w'' : World α} {x y x' y' u v : Handles} (hr : ReachW w) (S : Shows w a)
    (D : DoesW w a w' a' x y) (D' : DoesW w' a' w'' a'' x' y')
    (h : ∀ z, y.count z + y'.count z + u.count z = x.count z + x'.count z + v.count z) : DoesW w a w'' a'' u v := by
  refine ⟨D.reads.trans D'.reads, D'.reach, D'.shows, D'.roomy, D.thin.trans D'.thin, ?_, D.exch.trans D'.exch h⟩
  intro ch ch'' F F'' p hp h1
  have hp' : w'.heap.alive p = true :=
    D'.thin.alive (D.reach.tidy D.shows) (D'.reach.tidy D'.shows) D.shows D'.shows hp
  exact D'.calms _ _ D.shows.children F'' p hp fun _ => D.calms _ _ F D.shows.children p hp' h1

namespace Prog

/-- The code `p` asks for a last child or sibling, or the previous sibling of a first child, only where `last_child`
is right. -/
def Steers (h : Heap α) (ch : NodeId → List NodeId) : Prog α β → Prop
  | ret _ | fail _ => True
  | nav k q n f => (∀ p, UsesLast ch (.nav k q n : Op α) p → LastRight h ch p) ∧
    ∀ r, h.navTo n q = .ok r → Steers h ch (f r)
  | clone _ _ f | drop _ _ f | plain _ _ f => Steers h ch f
  | data _ n f => Steers h ch (f (if h.mutB n then none else h.data n))

/-- The code does the same after some handles have been made or dropped. -/
theorem eval_thin {out : β → Handles} (hr : ReachW w) (S : Shows w a) (hr' : ReachW w') (S' : Shows w' a')
    (ht : a.Thin a') (hc : Calms w w') {p : Prog α β} :
    ∀ {O : Handles}, Uses out p O → (∀ x ∈ O, w'.heap.alive x.2 = true) → Steers w.heap a.children p →
      p.eval w'.heap = p.eval w.heap ∧ Steers w'.heap a'.children p := by
  have T := hr.tidy S
  have T' := hr'.tidy S'
  induction p with
  | ret b => intros; exact ⟨rfl, trivial⟩
  | fail e => intros; exact ⟨rfl, trivial⟩
  | nav k q n f ih =>
    intro O u ha st
    have hn' := ha _ u.1
    have hd' := S'.alive.1 hn'
    have hn := ht.alive T T' S S' hn'
    have htn : a'.tree n ≠ none := fun e => hd' ((T'.dead n).2 e)
    have hu' : ∀ p, UsesLast a'.children (.nav k q n : Op α) p → LastRight w'.heap a'.children p := by
      intro p hp
      have key : a'.tree p ≠ none → UsesLast a.children (.nav k q n : Op α) p → LastRight w'.heap a'.children p := by
        intro h1 h2
        exact hc _ _ S.children S'.children p (S'.alive.2 fun e => h1 ((T'.dead p).1 e)) fun _ => st.1 p h2
      have up : n ∈ a'.children p → a'.tree p ≠ none := fun h => by rw [T'.mem h]; exact htn
      cases q with
      | lastChild =>
        replace hp : p = n := hp
        subst hp
        exact key htn rfl
      | lastSibling =>
        replace hp : n ∈ a'.children p := hp
        exact key (up hp) (show n ∈ a.children p by rw [← ht.children p (up hp)]; exact hp)
      | prevSibling =>
        replace hp : (a'.children p).head? = some n := hp
        have h1 := up (List.mem_of_head? hp)
        exact key h1 (show (a.children p).head? = some n by rw [← ht.children p h1]; exact hp)
      | _ => exact hp.elim
    obtain ⟨o, e, hf, hm⟩ := hr.finds S (S.alive.1 hn) st.1
    have e' := hr'.navTo_unique S' hd' hu' (ht.finds T T' htn hf)
    have hst := st.2 o e
    have go : ∀ {O'}, Uses out (f o) O' → (∀ x ∈ O', w'.heap.alive x.2 = true) →
        (f o).eval w'.heap = (f o).eval w.heap ∧ Steers w'.heap a'.children (f o) := fun h1 h2 => ih o h1 h2 hst
    have main : (f o).eval w'.heap = (f o).eval w.heap ∧ Steers w'.heap a'.children (f o) := by
      cases o with
      | none => exact go u.2.1 ha
      | some m =>
        refine go (u.2.2 m) ?_
        intro x hx
        rcases List.mem_cons.1 hx with rfl | hx
        · show w'.heap.alive m = true
          have : a'.tree m ≠ none := ht.whole n m (hm m rfl).symm htn
          exact S'.alive.2 fun e => this ((T'.dead m).1 e)
        · exact ha x hx
    refine ⟨?_, hu', fun r h => ?_⟩
    · simp only [eval, e, e']; exact main.1
    · rw [e'] at h; cases h; exact main.2
  | clone k n f ih =>
    intro O u ha st
    refine ih u.2 ?_ st
    intro x hx
    rcases List.mem_cons.1 hx with rfl | hx
    · exact ha _ u.1
    · exact ha x hx
  | drop k n f ih =>
    intro O u ha st
    exact ih u.2 (fun x hx => ha x (List.mem_of_mem_erase hx)) st
  | plain k n f ih =>
    intro O u ha st
    refine ih u.2.2 ?_ st
    intro x hx
    rcases List.mem_cons.1 hx with rfl | hx
    · exact ha (k, n) u.2.1
    · exact ha x hx
  | data k n f ih =>
    intro O u ha st
    have hn' : w'.heap.alive n = true := ha _ u.1
    have hn := ht.alive T T' S S' hn'
    have htn : a'.tree n ≠ none := fun e => S'.alive.1 hn' ((T'.dead n).2 e)
    have h1 : w'.heap.data n = w.heap.data n := by rw [← S'.data, ← S.data]; exact ht.data n htn
    have h2 : w'.heap.mutB n = w.heap.mutB n := by
      have := ht.borrowed n htn
      rw [S'.borrowed, S.borrowed, hn, hn'] at this
      simpa using this
    simp only [eval, Steers, h1, h2] at st ⊢
    exact ih _ (u.2 _) ha st

end Prog

/-! ### Single operations -/

theorem ReachW.nav_does (hr : ReachW w) (S : Shows w a) (R : a.Roomy) (hk : 0 < a.held k n)
    (hq : ∀ p, UsesLast a.children (.nav k q n : Op α) p → LastRight w.heap a.children p) :
    ∃ w' r, w.exec (.nav k q n) = .ok (w', .node r) ∧ w.heap.navTo n q = .ok r ∧
      ∃ a', DoesW w a w' a' [] (handles k r.toList) := by
  obtain ⟨o, e, hf, hm⟩ := hr.finds S (hr.held_live S hk) hq
  have hb : ∀ ch p, ¬ DropsLast ch (.nav k q n : Op α) p := fun _ _ h => h
  cases o with
  | none =>
    obtain ⟨w', e', hr', S', hc⟩ := hr.playC (op := .nav k q n) S R hk trivial hq (.navNone hf) hb (fun p h1 h2 => absurd h2 h1)
    refine ⟨w', none, e', e, a, .step (op := .nav k q n) (.refl w) trivial ⟨(Shows.may (op := .nav k q n) S).1 hk, e'⟩, hr', S', R, .refl a, hc, fun k' x => ?_, ?_, ?_, ?_⟩
    · rw [← S'.held, S.held]; simp [handles]
    · rw [← S'.trees, S.trees]
    · rw [← S'.grantTok, S.grantTok]
    · rw [← S'.prohTok, S.prohTok]
  | some m =>
    obtain ⟨w', e', hr', S', hc⟩ := hr.playC (op := .nav k q n) S R hk trivial hq (.navSome hf) hb (fun p h1 h2 => absurd h2 h1)
    refine ⟨w', some m, e', e, _, .step (op := .nav k q n) (.refl w) trivial ⟨(Shows.may (op := .nav k q n) S).1 hk, e'⟩, hr', S', (a.same_give k m).roomy R,
      (a.same_give k m).thin, hc, fun k' x => ?_, ?_, ?_, ?_⟩
    · rw [← S'.held, ← S.held]
      simp only [Forest.give, handles, Option.toList, List.map, count_single, List.count_nil]
      split <;> rfl
    · rw [← S'.trees, ← S.trees]; rfl
    · rw [← S'.grantTok, ← S.grantTok]; rfl
    · rw [← S'.prohTok, ← S.prohTok]; rfl

theorem ReachW.give_does {op : Op α} {k' : Kind} (hr : ReachW w) (S : Shows w a) (R : a.Roomy) (hm : a.May op) (hop : op.isRead)
    (hf : a.Fine op) (hu : ∀ p, ¬ UsesLast a.children op p) (hb : ∀ ch p, ¬ DropsLast ch op p)
    (st : a.Step op .unit (a.give k' n)) :
    ∃ w', w.exec op = .ok (w', .unit) ∧ ∃ a', DoesW w a w' a' [] [(k', n)] := by
  obtain ⟨w', e', hr', S', hc⟩ := hr.playC (op := op) S R hm hf (fun p h => absurd h (hu p)) st hb (fun p h1 h2 => absurd h2 h1)
  refine ⟨w', e', _, .step (.refl w) hop ⟨S.may.1 hm, e'⟩, hr', S', (a.same_give k' n).roomy R,
    (a.same_give k' n).thin, hc, fun q x => ?_, ?_, ?_, ?_⟩
  · rw [← S'.held, ← S.held]
    simp only [Forest.give, count_single, List.count_nil]
    split <;> rfl
  · rw [← S'.trees, ← S.trees]; rfl
  · rw [← S'.grantTok, ← S.grantTok]; rfl
  · rw [← S'.prohTok, ← S.prohTok]; rfl

theorem ReachW.drop_does (hr : ReachW w) (S : Shows w a) (R : a.Roomy) (hk : 0 < a.held k n) :
    ∃ w', w.exec (.drop k n) = .ok (w', .unit) ∧ ∃ a', DoesW w a w' a' [(k, n)] [] := by
  obtain ⟨w', e', hr', S', hc⟩ := hr.playC (op := .drop k n) S R hk trivial (fun p h => h.elim) (.drop k n)
    (fun _ _ h => h) (fun p h1 h2 => Forest.sweep_old p h1 h2)
  refine ⟨w', e', _, .step (op := .drop k n) (.refl w) trivial ⟨(Shows.may (op := .drop k n) S).1 hk, e'⟩, hr', S', (a.same_take k n).roomy R,
    (a.same_take k n).thin.trans (Forest.thin_sweep _), hc, fun q x => ?_, ?_, ?_, ?_⟩
  · rw [← S'.held, ← S.held]
    simp only [Forest.take, Forest.sweep, count_single, List.count_nil]
    split
    · rename_i h; obtain ⟨rfl, rfl⟩ := h; omega
    · rfl
  · rw [← S'.trees, ← S.trees]; rfl
  · rw [← S'.grantTok, ← S.grantTok]; rfl
  · rw [← S'.prohTok, ← S.prohTok]; rfl

/-! ### Code -/

theorem Prog.count_erase_mem {O : Handles} (hx : (k, n) ∈ O) (z : Kind × NodeId) :
    O.count z = [(k, n)].count z + (O.erase (k, n)).count z := by
  by_cases e : z = (k, n)
  · subst e
    rw [List.count_erase_self]
    have := List.count_pos_iff.2 hx
    simp; omega
  · rw [List.count_erase_of_ne e]
    have : [(k, n)].count z = 0 := by simpa [List.count_eq_zero] using e
    omega

/-- One operation and the code after it. -/
theorem DoesW.andThen {out : β → Handles} {f : Prog α β} {w1 : World α} {a1 : Forest α} {x y O O1 : Handles}
    (hr : ReachW w) (S : Shows w a) (D : DoesW w a w1 a1 x y) (h : w.Has O)
    (hO : ∀ z, O1.count z + x.count z = O.count z + y.count z) (u : Prog.Uses out f O1)
    (st : Prog.Steers w.heap a.children f)
    (ih : w1.Has O1 → Prog.Steers w1.heap a1.children f → match f.eval w1.heap with
      | .error e => f.run w1 = .error e
      | .ok b => ∃ w' a', f.run w1 = .ok (w', b) ∧ DoesW w1 a1 w' a' O1 (out b)) :
    match f.eval w.heap with
    | .error e => f.run w1 = .error e
    | .ok b => ∃ w' a', f.run w1 = .ok (w', b) ∧ DoesW w a w' a' O (out b) := by
  have h1 : w1.Has O1 := by
    intro k' x
    have e1 := D.exch.held k' x
    have e2 := h k' x
    have e3 := hO (k', x)
    omega
  obtain ⟨e1, st1⟩ := Prog.eval_thin hr S D.reach D.shows D.thin D.calms u
    (fun x hx => D.shows.alive.2 (D.reach.held_live D.shows (q := x.1) (by rw [D.shows.held]; exact h1.pos hx))) st
  have := ih h1 st1
  rw [e1] at this
  cases e5 : f.eval w.heap with
  | error e => rw [e5] at this; exact this
  | ok b =>
    rw [e5] at this
    obtain ⟨w2, a2, e6, D2⟩ := this
    refine ⟨w2, a2, e6, D.trans hr S D2 fun z => ?_⟩
    have := hO z
    omega

/-- On the program state the code does what it does on the memory, and exchanges its handles. -/
theorem Prog.sound_wide {out : β → Handles} {p : Prog α β} : ∀ {w : World α} {a : Forest α} {O : Handles}, ReachW w →
    Shows w a → a.Roomy → w.Has O → Uses out p O → Steers w.heap a.children p →
    match p.eval w.heap with
    | .error e => p.run w = .error e
    | .ok b => ∃ w' a', p.run w = .ok (w', b) ∧ DoesW w a w' a' O (out b) := by
  induction p with
  | ret b =>
    intro w a O hr S R h u _
    refine ⟨w, a, rfl, .refl w, hr, S, R, .refl a, .refl w, ⟨fun k n => ?_, rfl, rfl, rfl⟩⟩
    rw [u (k, n)]
  | fail e => intro w a O hr S R h u _; rfl
  | nav k q n f ih =>
    intro w a O hr S R h u st
    obtain ⟨w1, r, e1, e2, a1, D⟩ := hr.nav_does S R (by rw [S.held]; exact h.pos u.1) st.1
    have u1 : Uses out (f r) (handles k r.toList ++ O) := by
      cases r with
      | none => exact u.2.1
      | some m => exact u.2.2 m
    simp only [eval, e2, run, e1]
    refine D.andThen hr S h (fun z => ?_) u1 (st.2 r e2) (fun h1 st1 => ih r D.reach D.shows D.roomy h1 u1 st1)
    simp only [List.count_append, List.count_nil]; omega
  | clone k n f ih =>
    intro w a O hr S R h u st
    have hk : 0 < a.held k n := by rw [S.held]; exact h.pos u.1
    obtain ⟨w1, e1, a1, D⟩ := hr.give_does (op := .clone k n) S R hk trivial trivial (fun _ h => h) (fun _ _ h => h) (.clone k n)
    simp only [eval, run, e1]
    refine D.andThen hr S h (O1 := [(k, n)] ++ O) (fun z => ?_) u.2 st (fun h1 st1 => ih D.reach D.shows D.roomy h1 u.2 st1)
    simp only [List.count_append, List.count_nil]; omega
  | drop k n f ih =>
    intro w a O hr S R h u st
    obtain ⟨w1, e1, a1, D⟩ := hr.drop_does S R (by rw [S.held]; exact h.pos u.1)
    simp only [eval, run, e1]
    refine D.andThen hr S h (fun z => ?_) u.2 st (fun h1 st1 => ih D.reach D.shows D.roomy h1 u.2 st1)
    have := count_erase_mem u.1 z
    simp only [List.count_nil]; omega
  | plain k n f ih =>
    intro w a O hr S R h u st
    have hk : 0 < a.held k n := by rw [S.held]; exact h.pos u.2.1
    obtain ⟨w1, e1, a1, D⟩ := hr.give_does (op := .plainOf k n) S R ⟨u.1, hk⟩ trivial trivial (fun _ h => h) (fun _ _ h => h)
      (.plainOf k n)
    simp only [eval, run, e1]
    refine D.andThen hr S h (O1 := [(.plain, n)] ++ O) (fun z => ?_) u.2.2 st
      (fun h1 st1 => ih D.reach D.shows D.roomy h1 u.2.2 st1)
    simp only [List.count_append, List.count_nil]; omega
  | data k n f ih =>
    intro w a O hr S R h u st
    simp only [eval, run]
    exact ih _ hr S R h (u.2 _) st

end Dendron
